import Verif.RB.HeapOps

/-!
# `rb_insert_color` on the heap
-/

namespace Kasync.RBHeap
open Kasync.RB (Color Tree Frame Path zip)

variable {δ κ : Type} {h : Heap δ} {p : Path (Ptr × δ)}

theorem ptr_node (c : Color) (l r : Tree (Ptr × δ)) (x : Ptr × δ) : ptr (.node c l x r) = x.1 := rfl
theorem top_left (c : Color) (r : Tree (Ptr × δ)) (x : Ptr × δ) (p : Path (Ptr × δ)) : top (.left c x r :: p) = x.1 := rfl
theorem top_right (c : Color) (l : Tree (Ptr × δ)) (x : Ptr × δ) (p : Path (Ptr × δ)) : top (.right c l x :: p) = x.1 := rfl

theorem Is.setBlackRoot {t : Tree (Ptr × δ)} (hi : Is h t) (hne : t ≠ .nil) : ∃ h', RBHeap.setBlack h h.root = some h' ∧ To h t h' t.setBlack := by
  cases t with
  | nil => exact absurd rfl hne
  | node c l x r =>
    obtain ⟨h', e1, e2⟩ := Is.setBlack (p := []) (h := h) (by exact hi)
    exact ⟨h', by rw [hi.1]; exact e1, e2⟩

theorem zip_ne_nil {t : Tree (Ptr × δ)} (ht : t ≠ .nil) : ∀ {p : Path (Ptr × δ)}, zip p t ≠ .nil := by
  intro p
  induction p generalizing t with
  | nil => exact ht
  | cons f p ih => cases f <;> exact ih (by simp [Frame.plug])

theorem ptr_ne {t : Tree (Ptr × δ)} (ht : t ≠ .nil) (hi : Is h (zip p t)) : ptr t ≠ 0 := fun e => ht ((hi.z.2.1.ptr_zero).1 e)

/-- the loop ends when the parent is black -/
theorem insertColor_exit {f : Frame (Ptr × δ)} {c : Color} {l r : Tree (Ptr × δ)} {x : Ptr × δ} (hi : Is h (zip (f :: p) (.node c l x r)))
    (hf : (f.plug (.node c l x r)).isRed = false) :
    ∃ h', insertColor h x.1 = some h' ∧ To h (zip (f :: p) (.node c l x r)) h' (zip (f :: p) (.node c l x r)).setBlack := by
  obtain ⟨w, e1, e2, e3⟩ := hi.load
  have e4 : isRed h (top (f :: p)) = some false := by
    have := Is.isRed (p := p) (h := h) (t := f.plug (.node c l x r)) (by exact hi)
    rw [hf] at this
    cases f <;> exact this
  obtain ⟨h', e5, e6⟩ := hi.setBlackRoot (zip_ne_nil (by simp))
  refine ⟨h', ?_, e6⟩
  rw [insertColor]
  simp only [Option.bind_eq_bind, Option.bind_some, e1, e2, e4, Bool.false_eq_true, if_false, e5]

theorem insertColor_root {c : Color} {l r : Tree (Ptr × δ)} {x : Ptr × δ} (hi : Is h (.node c l x r)) :
    ∃ h', insertColor h x.1 = some h' ∧ To h (.node c l x r) h' (Tree.node c l x r).setBlack := by
  obtain ⟨w, e1, e2, e3⟩ := Is.load (p := []) (h := h) (by exact hi)
  obtain ⟨h', e5, e6⟩ := hi.setBlackRoot (by simp)
  refine ⟨h', ?_, e6⟩
  rw [insertColor]
  simp only [Option.bind_eq_bind, Option.bind_some, e1, e2, top, isRed, if_true, Bool.false_eq_true, if_false, e5]

/-- the two colour changes and the step up, left side: src/krbtree.c:135-142 -/
theorem uncle_red {gc pc : Color} {n u pr : Tree (Ptr × δ)} {px gx : Ptr × δ} {w1 w2 : Tree (Ptr × δ)}
    (hu : u.isRed = true) (hi : Is h (zip p (.node gc (.node pc w1 px w2) gx u))) :
    ∃ h1 h2 h3, setBlack h (ptr u) = some h1 ∧ setBlack h1 px.1 = some h2 ∧ setRed h2 gx.1 = some h3 ∧
      To h (zip p (.node gc (.node pc w1 px w2) gx u)) h3 (zip p (.node .red (.node .black w1 px w2) gx u.setBlack)) := by
  cases u with
  | nil => simp [Tree.isRed] at hu
  | node uc ul ux ur =>
    obtain ⟨h1, e1, t1⟩ := Is.setBlack (p := .right gc (.node pc w1 px w2) gx :: p) (h := h) (by exact hi)
    obtain ⟨h2, e2, t2⟩ := Is.setBlack (p := .left gc gx (.node .black ul ux ur) :: p) (h := h1) (by exact t1.is)
    obtain ⟨h3, e3, t3⟩ := Is.setRed (p := p) (h := h2) (by exact t2.is)
    exact ⟨h1, h2, h3, e1, e2, e3, (t1.trans t2).trans t3⟩

/-- right side: src/krbtree.c:161-168 -/
theorem uncle_red' {gc pc : Color} {u : Tree (Ptr × δ)} {px gx : Ptr × δ} {w1 w2 : Tree (Ptr × δ)}
    (hu : u.isRed = true) (hi : Is h (zip p (.node gc u gx (.node pc w1 px w2)))) :
    ∃ h1 h2 h3, setBlack h (ptr u) = some h1 ∧ setBlack h1 px.1 = some h2 ∧ setRed h2 gx.1 = some h3 ∧
      To h (zip p (.node gc u gx (.node pc w1 px w2))) h3 (zip p (.node .red u.setBlack gx (.node .black w1 px w2))) := by
  cases u with
  | nil => simp [Tree.isRed] at hu
  | node uc ul ux ur =>
    obtain ⟨h1, e1, t1⟩ := Is.setBlack (p := .left gc gx (.node pc w1 px w2) :: p) (h := h) (by exact hi)
    obtain ⟨h2, e2, t2⟩ := Is.setBlack (p := .right gc (.node .black ul ux ur) gx :: p) (h := h1) (by exact t1.is)
    obtain ⟨h3, e3, t3⟩ := Is.setRed (p := p) (h := h2) (by exact t2.is)
    exact ⟨h1, h2, h3, e1, e2, e3, (t1.trans t2).trans t3⟩

theorem Is.nodup {t : Tree (Ptr × δ)} (hi : Is h (zip p t)) : (pathAddrs p ++ addrs t).Nodup := hi.z.2.2

theorem ptr_ne_of_mem {t : Tree (Ptr × δ)} {q : Ptr} (h0 : q ≠ 0) (hq : q ∉ addrs t) : ptr t ≠ q := by
  cases t with
  | nil => exact fun e => h0 e.symm
  | node c l x r => exact fun e => hq (e ▸ Rep.ptr_mem (by simp))

set_option maxHeartbeats 2000000 in
/-- **`rb_insert_color` does on the heap what the functional model does on the tree.** -/
theorem insertColor_refines (k : Nat) : ∀ (p : Path (Ptr × δ)) (h : Heap δ) (l : Tree (Ptr × δ)) (x : Ptr × δ) (r t' : Tree (Ptr × δ)), p.length ≤ k →
    Is h (zip p (.node .red l x r)) → RB.insertColor (.node .red l x r) p = some t' →
    ∃ h', insertColor h x.1 = some h' ∧ To h (zip p (.node .red l x r)) h' t' := by
  induction k with
  | zero =>
    intro p h l x r t' hk hi he
    have : p = [] := by cases p <;> simp_all
    subst this
    simp only [RB.insertColor, Option.some.injEq] at he
    subst he
    exact insertColor_root hi
  | succ k ih =>
    intro p h l x r t' hk hi he
    match p, hk, hi, he with
    | [], _, hi, he =>
      simp only [RB.insertColor, Option.some.injEq] at he
      subst he
      exact insertColor_root hi
    | .left .black y r' :: p, _, hi, he =>
      simp only [RB.insertColor, Option.some.injEq] at he
      subst he
      exact insertColor_exit hi rfl
    | .right .black l' y :: p, _, hi, he =>
      simp only [RB.insertColor, Option.some.injEq] at he
      subst he
      exact insertColor_exit hi rfl
    | [.left .red _ _], _, _, he => simp [RB.insertColor] at he
    | [.right .red _ _], _, _, he => simp [RB.insertColor] at he
    | .left .red px pr :: .left gc gx u :: p, hk, hi, he =>
      obtain ⟨w, e1, e2, _⟩ := hi.load
      obtain ⟨wp, p1, p2, p3⟩ := Is.load (p := .left gc gx u :: p) (h := h) (by exact hi)
      obtain ⟨wg, g1, g2, g3⟩ := Is.load (p := p) (h := h) (by exact hi)
      have hru := Is.isRed (p := .right gc (.node .red (.node .red l x r) px pr) gx :: p) (h := h) (t := u) (by exact hi)
      have hrp := Is.isRed (p := .left gc gx u :: p) (h := h) (t := .node .red (.node .red l x r) px pr) (by exact hi)
      have hn := hi.nodup
      simp only [pathAddrs, addrs_node, List.nodup_append, List.nodup_cons, List.mem_append, List.mem_cons] at hn
      have hpr : ptr pr ≠ x.1 := ptr_ne_of_mem hi.z.2.1.1.1 (by grind)
      rw [insertColor]
      simp only [ptr_node, Tree.isRed] at hrp
      simp only [Option.bind_eq_bind, Option.bind_some, e1, e2, top_left, top_right, hrp, p1, p2, g1, ptr_node, Frame.plug, hru, if_true]
      simp only [RB.insertColor] at he
      cases hu : u.isRed
      · rw [hu] at he
        simp only [Bool.false_eq_true, if_false, Option.some.injEq] at he
        subst he
        obtain ⟨h1, f1, t1⟩ := Is.setBlack (p := .left gc gx u :: p) (h := h) (by exact hi)
        obtain ⟨h2, f2, t2⟩ := Is.setRed (p := p) (h := h1) (by exact t1.is)
        obtain ⟨h3, f3, t3⟩ := Is.rotateRight (p := p) (h := h2) (by exact t2.is)
        obtain ⟨h4, f4, t4⟩ := insertColor_exit (f := .left .black px (.node .red pr gx u)) (p := p) (h := h3) (by exact t3.is) rfl
        refine ⟨h4, ?_, ((t1.trans t2).trans t3).trans t4⟩
        simp only [hu, hpr, if_false, f1, f2, f3, f4, Option.bind_some, Bool.false_eq_true]
      · rw [hu] at he
        simp only [if_true] at he
        obtain ⟨h1, h2, h3, f1, f2, f3, t3⟩ := uncle_red (n := .nil) (pr := .nil) (p := p) (h := h) hu (by exact hi)
        obtain ⟨h4, f4, t4⟩ := ih p h3 _ gx _ t' (by simp only [List.length_cons] at hk; omega) t3.is he
        refine ⟨h4, ?_, t3.trans t4⟩
        simp only [hu, if_true, f1, f2, f3, f4, Option.bind_some]
    | .right .red pl px :: .left gc gx u :: p, hk, hi, he =>
      obtain ⟨w, e1, e2, _⟩ := hi.load
      obtain ⟨wp, p1, p2, p3⟩ := Is.load (p := .left gc gx u :: p) (h := h) (by exact hi)
      obtain ⟨wg, g1, g2, g3⟩ := Is.load (p := p) (h := h) (by exact hi)
      have hru := Is.isRed (p := .right gc (.node .red pl px (.node .red l x r)) gx :: p) (h := h) (t := u) (by exact hi)
      have hrp := Is.isRed (p := .left gc gx u :: p) (h := h) (t := .node .red pl px (.node .red l x r)) (by exact hi)
      rw [insertColor]
      simp only [ptr_node, Tree.isRed] at hrp
      simp only [Option.bind_eq_bind, Option.bind_some, e1, e2, top_left, top_right, hrp, p1, p2, g1, ptr_node, Frame.plug, hru, if_true]
      simp only [RB.insertColor] at he
      cases hu : u.isRed
      · rw [hu] at he
        simp only [Bool.false_eq_true, if_false, Option.some.injEq] at he
        subst he
        obtain ⟨h0, f0, t0⟩ := Is.rotateLeft (p := .left gc gx u :: p) (h := h) (by exact hi)
        obtain ⟨h1, f1, t1⟩ := Is.setBlack (p := .left gc gx u :: p) (h := h0) (by exact t0.is)
        obtain ⟨h2, f2, t2⟩ := Is.setRed (p := p) (h := h1) (by exact t1.is)
        obtain ⟨h3, f3, t3⟩ := Is.rotateRight (p := p) (h := h2) (by exact t2.is)
        obtain ⟨h4, f4, t4⟩ := insertColor_exit (f := .left .black x (.node .red r gx u)) (p := p) (h := h3) (by exact t3.is) rfl
        refine ⟨h4, ?_, (((t0.trans t1).trans t2).trans t3).trans t4⟩
        simp only [hu, if_true, Bool.false_eq_true, if_false, f0, f1, f2, f3, f4, Option.bind_some]
      · rw [hu] at he
        simp only [if_true] at he
        obtain ⟨h1, h2, h3, f1, f2, f3, t3⟩ := uncle_red (n := .nil) (pr := .nil) (p := p) (h := h) hu (by exact hi)
        obtain ⟨h4, f4, t4⟩ := ih p h3 _ gx _ t' (by simp only [List.length_cons] at hk; omega) t3.is he
        refine ⟨h4, ?_, t3.trans t4⟩
        simp only [hu, if_true, f1, f2, f3, f4, Option.bind_some]
    | .right .red pl px :: .right gc u gx :: p, hk, hi, he =>
      obtain ⟨w, e1, e2, _⟩ := hi.load
      obtain ⟨wp, p1, p2, p3⟩ := Is.load (p := .right gc u gx :: p) (h := h) (by exact hi)
      obtain ⟨wg, g1, g2, g3⟩ := Is.load (p := p) (h := h) (by exact hi)
      have hru := Is.isRed (p := .left gc gx (.node .red pl px (.node .red l x r)) :: p) (h := h) (t := u) (by exact hi)
      have hrp := Is.isRed (p := .right gc u gx :: p) (h := h) (t := .node .red pl px (.node .red l x r)) (by exact hi)
      have hn := hi.nodup
      simp only [pathAddrs, addrs_node, List.nodup_append, List.nodup_cons, List.mem_append, List.mem_cons] at hn
      have hpr : ptr pl ≠ x.1 := ptr_ne_of_mem hi.z.2.1.1.1 (by grind)
      have hp0 : px.1 ≠ 0 := ptr_ne (h := h) (p := .right gc u gx :: p) (t := (.node .red pl px (.node .red l x r))) (by simp) (by exact hi)
      have hug : px.1 ≠ ptr u := Ne.symm (ptr_ne_of_mem hp0 (by grind))
      rw [insertColor]
      simp only [ptr_node, Tree.isRed] at hrp
      simp only [Option.bind_eq_bind, Option.bind_some, e1, e2, top_left, top_right, hrp, p1, p2, g1, ptr_node, Frame.plug, hru, if_true, hug, if_false]
      simp only [RB.insertColor] at he
      cases hu : u.isRed
      · rw [hu] at he
        simp only [Bool.false_eq_true, if_false, Option.some.injEq] at he
        subst he
        obtain ⟨h1, f1, t1⟩ := Is.setBlack (p := .right gc u gx :: p) (h := h) (by exact hi)
        obtain ⟨h2, f2, t2⟩ := Is.setRed (p := p) (h := h1) (by exact t1.is)
        obtain ⟨h3, f3, t3⟩ := Is.rotateLeft (p := p) (h := h2) (by exact t2.is)
        obtain ⟨h4, f4, t4⟩ := insertColor_exit (f := .right .black (.node .red u gx pl) px) (p := p) (h := h3) (by exact t3.is) rfl
        refine ⟨h4, ?_, ((t1.trans t2).trans t3).trans t4⟩
        simp only [hu, hpr, if_false, f1, f2, f3, f4, Option.bind_some, Bool.false_eq_true]
      · rw [hu] at he
        simp only [if_true] at he
        obtain ⟨h1, h2, h3, f1, f2, f3, t3⟩ := uncle_red' (p := p) (h := h) hu (by exact hi)
        obtain ⟨h4, f4, t4⟩ := ih p h3 _ gx _ t' (by simp only [List.length_cons] at hk; omega) t3.is he
        refine ⟨h4, ?_, t3.trans t4⟩
        simp only [hu, if_true, f1, f2, f3, f4, Option.bind_some]
    | .left .red px pr :: .right gc u gx :: p, hk, hi, he =>
      obtain ⟨w, e1, e2, _⟩ := hi.load
      obtain ⟨wp, p1, p2, p3⟩ := Is.load (p := .right gc u gx :: p) (h := h) (by exact hi)
      obtain ⟨wg, g1, g2, g3⟩ := Is.load (p := p) (h := h) (by exact hi)
      have hru := Is.isRed (p := .left gc gx (.node .red (.node .red l x r) px pr) :: p) (h := h) (t := u) (by exact hi)
      have hrp := Is.isRed (p := .right gc u gx :: p) (h := h) (t := .node .red (.node .red l x r) px pr) (by exact hi)
      have hn := hi.nodup
      simp only [pathAddrs, addrs_node, List.nodup_append, List.nodup_cons, List.mem_append, List.mem_cons] at hn
      have hp0 : px.1 ≠ 0 := ptr_ne (h := h) (p := .right gc u gx :: p) (t := (.node .red (.node .red l x r) px pr)) (by simp) (by exact hi)
      have hug : px.1 ≠ ptr u := Ne.symm (ptr_ne_of_mem hp0 (by grind))
      rw [insertColor]
      simp only [ptr_node, Tree.isRed] at hrp
      simp only [Option.bind_eq_bind, Option.bind_some, e1, e2, top_left, top_right, hrp, p1, p2, g1, ptr_node, Frame.plug, hru, if_true, hug, if_false]
      simp only [RB.insertColor] at he
      cases hu : u.isRed
      · rw [hu] at he
        simp only [Bool.false_eq_true, if_false, Option.some.injEq] at he
        subst he
        obtain ⟨h0, f0, t0⟩ := Is.rotateRight (p := .right gc u gx :: p) (h := h) (by exact hi)
        obtain ⟨h1, f1, t1⟩ := Is.setBlack (p := .right gc u gx :: p) (h := h0) (by exact t0.is)
        obtain ⟨h2, f2, t2⟩ := Is.setRed (p := p) (h := h1) (by exact t1.is)
        obtain ⟨h3, f3, t3⟩ := Is.rotateLeft (p := p) (h := h2) (by exact t2.is)
        obtain ⟨h4, f4, t4⟩ := insertColor_exit (f := .right .black (.node .red u gx l) x) (p := p) (h := h3) (by exact t3.is) rfl
        refine ⟨h4, ?_, (((t0.trans t1).trans t2).trans t3).trans t4⟩
        simp only [hu, if_true, Bool.false_eq_true, if_false, f0, f1, f2, f3, f4, Option.bind_some]
      · rw [hu] at he
        simp only [if_true] at he
        obtain ⟨h1, h2, h3, f1, f2, f3, t3⟩ := uncle_red' (p := p) (h := h) hu (by exact hi)
        obtain ⟨h4, f4, t4⟩ := ih p h3 _ gx _ t' (by simp only [List.length_cons] at hk; omega) t3.is he
        refine ⟨h4, ?_, t3.trans t4⟩
        simp only [hu, if_true, f1, f2, f3, f4, Option.bind_some]

end Kasync.RBHeap
