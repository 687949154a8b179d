import Verif.RB.HeapInsert

/-!
# `rb_erase` on the heap
-/

namespace Kasync.RBHeap
open Kasync.RB (Color Tree Frame Path zip EraseStep)

variable {δ κ : Type} {h : Heap δ} {p : Path (Ptr × δ)}

theorem Is.setBlackIf {t : Tree (Ptr × δ)} (hi : Is h (zip p t)) : ∃ h', setBlackIf h (ptr t) = some h' ∧ To h (zip p t) h' (zip p t.setBlack) := by
  cases t with
  | nil => exact ⟨h, by simp [RBHeap.setBlackIf, ptr], To.refl hi⟩
  | node c l x r =>
    obtain ⟨h', e1, e2⟩ := hi.setBlack
    exact ⟨h', by unfold RBHeap.setBlackIf; rw [if_pos (by exact hi.z.2.1.1.1)]; exact e1, e2⟩

theorem Is.setBlackIfRoot {t : Tree (Ptr × δ)} (hi : Is h t) : ∃ h', RBHeap.setBlackIf h h.root = some h' ∧ To h t h' t.setBlack := by
  rw [hi.1]
  exact Is.setBlackIf (p := []) hi

/-- what a pass of the loop gives -/
def StepOK (h : Heap δ) (p : Path (Ptr × δ)) (t0 : Tree (Ptr × δ)) (px : Ptr × δ) (res : Option (Heap δ × Option (Ptr × Ptr))) : EraseStep (Ptr × δ) → Prop
  | .up t => ∃ h', res = some (h', some (px.1, top p)) ∧ To h (zip p t0) h' (zip p t) ∧ ptr t = px.1
  | .done t => ∃ h', res = some (h', none) ∧ To h (zip p t0) h' (zip p t) ∧ t ≠ .nil

set_option maxHeartbeats 1000000 in
theorem eraseLeft_refines {pc : Color} {n o : Tree (Ptr × δ)} {px : Ptr × δ} {s : EraseStep (Ptr × δ)} (hi : Is h (zip p (.node pc n px o)))
    (he : RB.eraseLeft n pc px o = some s) : StepOK h p (.node pc n px o) px (eraseColorLeft h px.1 (ptr o)) s := by
  cases o with
  | nil => simp [RB.eraseLeft] at he
  | node oc ol ox or =>
    obtain ⟨wo, o1, o2, _⟩ := Is.load (p := .right pc n px :: p) (h := h) (by exact hi)
    have hl := Is.isRed (p := .left oc ox or :: .right pc n px :: p) (h := h) (t := ol) (by exact hi)
    have hr := Is.isRed (p := .right oc ol ox :: .right pc n px :: p) (h := h) (t := or) (by exact hi)
    simp only [RB.eraseLeft] at he
    unfold eraseColorLeft
    simp only [ptr_node, o1, Option.bind_eq_bind, Option.bind_some, hl, hr]
    by_cases hb : ol.isRed = false ∧ or.isRed = false
    · rw [if_pos hb] at he ⊢
      simp only [Option.some.injEq] at he
      subst he
      obtain ⟨h1, f1, t1⟩ := Is.setRed (p := .right pc n px :: p) (h := h) (by exact hi)
      obtain ⟨w, g1, g2, _⟩ := Is.load (p := p) (h := h1) (by exact t1.is)
      exact ⟨h1, by simp only [f1, Option.bind_some, g1, g2], t1, rfl⟩
    · rw [if_neg hb] at he ⊢
      cases hor : or.isRed
      · rw [if_pos hor] at he
        rw [if_pos rfl]
        cases ol with
        | nil => simp at he
        | node olc oll olx olr =>
          simp only [Option.some.injEq] at he
          subst he
          obtain ⟨h1, f1, t1⟩ := Is.setBlack (p := .left oc ox or :: .right pc n px :: p) (h := h) (by exact hi)
          obtain ⟨h2, f2, t2⟩ := Is.setRed (p := .right pc n px :: p) (h := h1) (by exact t1.is)
          obtain ⟨h3, f3, t3⟩ := Is.rotateRight (p := .right pc n px :: p) (h := h2) (by exact t2.is)
          obtain ⟨w3, g3, _, _⟩ := Is.load (p := p) (h := h3) (by exact t3.is)
          obtain ⟨w4, g4, _, k4⟩ := Is.load (p := p) (h := h3) (by exact t3.is)
          obtain ⟨h4, f4, t4⟩ := Is.setColor (p := .right pc n px :: p) (h := h3) (by exact t3.is) pc
          obtain ⟨h5, f5, t5⟩ := Is.setBlack (p := p) (h := h4) (by exact t4.is)
          obtain ⟨w5, g5, _, _⟩ := Is.load (p := .right .black n px :: p) (h := h5) (by exact t5.is)
          obtain ⟨h6, f6, t6⟩ := Is.setBlack (p := .right pc oll olx :: .right .black n px :: p) (h := h5) (by exact t5.is)
          obtain ⟨h7, f7, t7⟩ := Is.rotateLeft (p := p) (h := h6) (by exact t6.is)
          refine ⟨h7, ?_, (((((t1.trans t2).trans t3).trans t4).trans t5).trans t6).trans t7, by simp⟩
          simp only [Frame.plug, ptr_node] at g3 g4
          rw [g3] at g4
          simp only [Option.some.injEq, Node.mk.injEq] at g4
          have k3 : rbColor w3 = pc := by rw [g4.1, k4]
          simp only [ptr_node, f1, f2, f3, g3, k3, f4, f5, g5, f6, f7, Option.bind_some]
      · rw [if_neg (by rw [hor]; simp)] at he
        rw [if_neg (by simp)]
        simp only [Option.some.injEq] at he
        subst he
        cases or with
        | nil => simp [Tree.isRed] at hor
        | node orc orl orx orr =>
          obtain ⟨w4, g4, _, k4⟩ := Is.load (p := p) (h := h) (by exact hi)
          obtain ⟨h4, f4, t4⟩ := Is.setColor (p := .right pc n px :: p) (h := h) (by exact hi) pc
          obtain ⟨h5, f5, t5⟩ := Is.setBlack (p := p) (h := h4) (by exact t4.is)
          obtain ⟨w5, g5, _, _⟩ := Is.load (p := .right .black n px :: p) (h := h5) (by exact t5.is)
          obtain ⟨h6, f6, t6⟩ := Is.setBlack (p := .right pc ol ox :: .right .black n px :: p) (h := h5) (by exact t5.is)
          obtain ⟨h7, f7, t7⟩ := Is.rotateLeft (p := p) (h := h6) (by exact t6.is)
          refine ⟨h7, ?_, ((t4.trans t5).trans t6).trans t7, by simp⟩
          simp only [ptr_node, g4, k4, f4, f5, g5, f6, f7, Option.bind_some]

set_option maxHeartbeats 1000000 in
theorem eraseRight_refines {pc : Color} {n o : Tree (Ptr × δ)} {px : Ptr × δ} {s : EraseStep (Ptr × δ)} (hi : Is h (zip p (.node pc o px n)))
    (he : RB.eraseRight n pc px o = some s) : StepOK h p (.node pc o px n) px (eraseColorRight h px.1 (ptr o)) s := by
  cases o with
  | nil => simp [RB.eraseRight] at he
  | node oc ol ox or =>
    obtain ⟨wo, o1, o2, _⟩ := Is.load (p := .left pc px n :: p) (h := h) (by exact hi)
    have hl := Is.isRed (p := .left oc ox or :: .left pc px n :: p) (h := h) (t := ol) (by exact hi)
    have hr := Is.isRed (p := .right oc ol ox :: .left pc px n :: p) (h := h) (t := or) (by exact hi)
    simp only [RB.eraseRight] at he
    unfold eraseColorRight
    simp only [ptr_node, o1, Option.bind_eq_bind, Option.bind_some, hl, hr]
    by_cases hb : ol.isRed = false ∧ or.isRed = false
    · rw [if_pos hb] at he ⊢
      simp only [Option.some.injEq] at he
      subst he
      obtain ⟨h1, f1, t1⟩ := Is.setRed (p := .left pc px n :: p) (h := h) (by exact hi)
      obtain ⟨w, g1, g2, _⟩ := Is.load (p := p) (h := h1) (by exact t1.is)
      exact ⟨h1, by simp only [f1, Option.bind_some, g1, g2], t1, rfl⟩
    · rw [if_neg hb] at he ⊢
      cases hol : ol.isRed
      · rw [if_pos hol] at he
        rw [if_pos rfl]
        cases or with
        | nil => simp at he
        | node orc orl orx orr =>
          simp only [Option.some.injEq] at he
          subst he
          obtain ⟨h1, f1, t1⟩ := Is.setBlack (p := .right oc ol ox :: .left pc px n :: p) (h := h) (by exact hi)
          obtain ⟨h2, f2, t2⟩ := Is.setRed (p := .left pc px n :: p) (h := h1) (by exact t1.is)
          obtain ⟨h3, f3, t3⟩ := Is.rotateLeft (p := .left pc px n :: p) (h := h2) (by exact t2.is)
          obtain ⟨w3, g3, _, _⟩ := Is.load (p := p) (h := h3) (by exact t3.is)
          obtain ⟨w4, g4, _, k4⟩ := Is.load (p := p) (h := h3) (by exact t3.is)
          obtain ⟨h4, f4, t4⟩ := Is.setColor (p := .left pc px n :: p) (h := h3) (by exact t3.is) pc
          obtain ⟨h5, f5, t5⟩ := Is.setBlack (p := p) (h := h4) (by exact t4.is)
          obtain ⟨w5, g5, _, _⟩ := Is.load (p := .left .black px n :: p) (h := h5) (by exact t5.is)
          obtain ⟨h6, f6, t6⟩ := Is.setBlack (p := .left pc orx orr :: .left .black px n :: p) (h := h5) (by exact t5.is)
          obtain ⟨h7, f7, t7⟩ := Is.rotateRight (p := p) (h := h6) (by exact t6.is)
          refine ⟨h7, ?_, (((((t1.trans t2).trans t3).trans t4).trans t5).trans t6).trans t7, by simp⟩
          simp only [Frame.plug, ptr_node] at g3 g4
          rw [g3] at g4
          simp only [Option.some.injEq, Node.mk.injEq] at g4
          have k3 : rbColor w3 = pc := by rw [g4.1, k4]
          simp only [ptr_node, f1, f2, f3, g3, k3, f4, f5, g5, f6, f7, Option.bind_some]
      · rw [if_neg (by rw [hol]; simp)] at he
        rw [if_neg (by simp)]
        simp only [Option.some.injEq] at he
        subst he
        cases ol with
        | nil => simp [Tree.isRed] at hol
        | node olc oll olx olr =>
          obtain ⟨w4, g4, _, k4⟩ := Is.load (p := p) (h := h) (by exact hi)
          obtain ⟨h4, f4, t4⟩ := Is.setColor (p := .left pc px n :: p) (h := h) (by exact hi) pc
          obtain ⟨h5, f5, t5⟩ := Is.setBlack (p := p) (h := h4) (by exact t4.is)
          obtain ⟨w5, g5, _, _⟩ := Is.load (p := .left .black px n :: p) (h := h5) (by exact t5.is)
          obtain ⟨h6, f6, t6⟩ := Is.setBlack (p := .left pc ox or :: .left .black px n :: p) (h := h5) (by exact t5.is)
          obtain ⟨h7, f7, t7⟩ := Is.rotateRight (p := p) (h := h6) (by exact t6.is)
          refine ⟨h7, ?_, ((t4.trans t5).trans t6).trans t7, by simp⟩
          simp only [ptr_node, g4, k4, f4, f5, g5, f6, f7, Option.bind_some]

end Kasync.RBHeap
