import Verif.RB.HeapErase2

/-!
# `rb_erase` on the heap: unlinking the node
-/

namespace Kasync.RBHeap
open Kasync.RB (Color Tree Frame Path zip EraseStep)

variable {δ κ : Type} {h : Heap δ} {p : Path (Ptr × δ)}

/-- From a heap that represents `t` to one that represents `t'`, which lacks the node at `a`; nothing else touched. -/
structure Cut (h : Heap δ) (t : Tree (Ptr × δ)) (a : Ptr) (h' : Heap δ) (t' : Tree (Ptr × δ)) : Prop where
  is : Is h' t'
  off : ∀ b, b ∉ addrs t → h'.mem b = h.mem b
  same : ∀ b, b ∈ addrs t' ↔ b ∈ addrs t ∧ b ≠ a

theorem Cut.to {t t' t'' : Tree (Ptr × δ)} {a : Ptr} {h' h'' : Heap δ} (h1 : Cut h t a h' t') (h2 : To h' t' h'' t'') : Cut h t a h'' t'' :=
  ⟨h2.is, fun b hb => (h2.off b (fun e => hb ((h1.same b).1 e).1)).trans (h1.off b hb), fun b => (h2.same b).trans (h1.same b)⟩

theorem eraseFinish_refines {n t' : Tree (Ptr × δ)} {c : Color} (hi : Is h (zip p n)) (he : RB.eraseFinish c n p = some t') :
    ∃ h', eraseFinish h c (ptr n) (top p) = some h' ∧ To h (zip p n) h' t' := by
  cases c with
  | red =>
    simp only [RB.eraseFinish, Option.some.injEq] at he
    subst he
    exact ⟨h, by simp [eraseFinish], To.refl hi⟩
  | black =>
    simp only [RB.eraseFinish] at he
    obtain ⟨h', e1, e2⟩ := eraseColor_refines p h n t' hi he
    exact ⟨h', by simp [eraseFinish, e1], e2⟩

set_option maxHeartbeats 1000000 in
/-- unlinking a node with at most one child -/
theorem eraseOne_refines {c : Color} {l r n t' : Tree (Ptr × δ)} {x : Ptr × δ} (hi : Is h (zip p (.node c l x r)))
    (hn : (l = .nil ∧ n = r) ∨ (r = .nil ∧ n = l)) (he : RB.eraseFinish c n p = some t') :
    ∃ h', eraseOne h x.1 (ptr n) = some h' ∧ Cut h (zip p (.node c l x r)) x.1 h' t' := by
  obtain ⟨hctx, ⟨hx, hl, hr⟩, hnd⟩ := hi.z
  have hnd' := hnd
  simp only [addrs_node, List.nodup_append, List.nodup_cons, List.mem_append, List.mem_cons] at hnd'
  have hpa := top_aligned hctx
  obtain ⟨wx, lx, px, cx⟩ := hx.load
  have hmem : ∀ b, b ∈ addrs l ∨ b ∈ addrs r ↔ b ∈ addrs n := by
    rcases hn with ⟨rfl, rfl⟩ | ⟨rfl, rfl⟩ <;> simp [addrs_nil]
  have hrep : Rep h x.1 n := by rcases hn with ⟨rfl, rfl⟩ | ⟨rfl, rfl⟩ <;> assumption
  have hnn : (addrs n).Nodup := by rcases hn with ⟨rfl, rfl⟩ | ⟨rfl, rfl⟩ <;> grind
  obtain ⟨h1, e1, c1, r1, o1⟩ := hrep.reparent hnn hpa
  have hctx1 : Ctx h1 x.1 p := hctx.frame r1 (fun b hb => o1 b (by grind))
  obtain ⟨h2, e2, _, c2, o2⟩ := hctx1.relink hx.1 (by grind) (by grind) (ptr n)
  have hz : IsZ h2 p n := ⟨c2, c1.frame (fun b hb => o2 b (by grind)), by
    rw [List.nodup_append]; exact ⟨by grind, hnn, by grind⟩⟩
  have hcut : Cut h (zip p (.node c l x r)) x.1 h2 (zip p n) := by
    refine ⟨(isZ_iff _ _ _).1 hz, fun b hb => ?_, fun b => ?_⟩
    · simp only [mem_addrs_zip, addrs_node, List.mem_append, List.mem_cons] at hb
      rw [o2 b (by grind), o1 b (by grind)]
    · simp only [mem_addrs_zip, addrs_node, List.mem_append, List.mem_cons]
      have := hmem b
      grind
  obtain ⟨h3, e3, t3⟩ := eraseFinish_refines hcut.is he
  refine ⟨h3, ?_, hcut.to t3⟩
  unfold eraseOne
  simp only [Option.bind_eq_bind, lx, Option.bind_some, px, cx, e1, e2, e3]

/-! ## Two children -/

/-- the node above a location within a subtree whose parent is `par` -/
def topD (par : Ptr) : Path (Ptr × δ) → Ptr
  | [] => par
  | .left _ x _ :: _ => x.1
  | .right _ _ x :: _ => x.1

/-- like `Ctx`, within a subtree -/
def SCtx (h : Heap δ) (par hole : Ptr) : Path (Ptr × δ) → Prop
  | [] => True
  | .left c x r :: p => Cell h x.1 (topD par p) c hole (ptr r) x.2 ∧ Rep h x.1 r ∧ SCtx h par x.1 p
  | .right c l x :: p => Cell h x.1 (topD par p) c (ptr l) hole x.2 ∧ Rep h x.1 l ∧ SCtx h par x.1 p

theorem rep_zip (h : Heap δ) (par : Ptr) (q : Path (Ptr × δ)) : ∀ t, Rep h par (zip q t) ↔ SCtx h par (ptr t) q ∧ Rep h (topD par q) t := by
  induction q with
  | nil => intro t; simp [zip, SCtx, topD]
  | cons f q ih =>
    intro t
    cases f with
    | left c x r => rw [zip, ih]; simp only [Frame.plug, SCtx, Rep, topD, ptr_node]; grind
    | right c l x => rw [zip, ih]; simp only [Frame.plug, SCtx, Rep, topD, ptr_node]; grind

theorem SCtx.frame {h h' : Heap δ} {par : Ptr} {q : Path (Ptr × δ)} : ∀ {hole : Ptr}, SCtx h par hole q → (∀ a ∈ pathAddrs q, h'.mem a = h.mem a) → SCtx h' par hole q := by
  induction q with
  | nil => intros; trivial
  | cons f q ih =>
    intro hole hc e
    cases f with
    | left c x r =>
      simp only [pathAddrs] at e
      exact ⟨hc.1.frame (e _ (by simp)), hc.2.1.frame (fun a ha => e a (by simp [ha])), ih hc.2.2 (fun a ha => e a (by simp [ha]))⟩
    | right c l x =>
      simp only [pathAddrs] at e
      exact ⟨hc.1.frame (e _ (by simp)), hc.2.1.frame (fun a ha => e a (by simp [ha])), ih hc.2.2 (fun a ha => e a (by simp [ha]))⟩

/-- the search for the successor: src/krbtree.c:282-284 -/
theorem goLeft_refines {sc : Color} {sx : Ptr × δ} {child : Tree (Ptr × δ)} {q : Path (Ptr × δ)} (t : Tree (Ptr × δ)) : ∀ (q0 : Path (Ptr × δ)) (par : Ptr), Rep h par t →
    RB.descendLeft t q0 = some (sc, sx, child, q) → goLeft h (ptr t) = some sx.1 := by
  induction t with
  | nil => intro q0 par _ he; simp [RB.descendLeft] at he
  | node c l x r ihl _ =>
    intro q0 par hr he
    obtain ⟨w, e1, _, _⟩ := hr.1.load
    rw [goLeft]
    simp only [ptr_node, Option.bind_eq_bind, e1, Option.bind_some]
    cases l with
    | nil =>
      simp only [RB.descendLeft, Option.some.injEq, Prod.mk.injEq] at he
      simp [ptr, he.2.1]
    | node lc ll lx lr =>
      simp only [RB.descendLeft] at he
      have := ihl _ _ hr.2.1 he
      rw [if_pos (by exact hr.2.1.1.1)]
      exact this

/-- all the steps of the search go left -/
theorem descendLeft_left {sc : Color} {sx : Ptr × δ} {child : Tree (Ptr × δ)} {q : Path (Ptr × δ)} (t : Tree (Ptr × δ)) : ∀ (q0 : Path (Ptr × δ)),
    RB.descendLeft t q0 = some (sc, sx, child, q) → (∀ f ∈ q0, ∃ c x r, f = .left c x r) → ∀ f ∈ q, ∃ c x r, f = .left c x r := by
  induction t with
  | nil => intro q0 he; simp [RB.descendLeft] at he
  | node c l x r ihl _ =>
    intro q0 he hq
    cases l with
    | nil => simp only [RB.descendLeft, Option.some.injEq, Prod.mk.injEq] at he; rw [← he.2.2.2]; exact hq
    | node lc ll lx lr =>
      simp only [RB.descendLeft] at he
      exact ihl _ he (fun f hf => by rcases List.mem_cons.1 hf with rfl | hf; exact ⟨_, _, _, rfl⟩; exact hq f hf)

theorem ptr_zip (q : Path (Ptr × δ)) : ∀ (f : Frame (Ptr × δ)) (t t' : Tree (Ptr × δ)), ptr (zip (f :: q) t) = ptr (zip (f :: q) t') := by
  induction q with
  | nil => intro f t t'; cases f <;> rfl
  | cons g q ih => intro f t t'; exact ih g _ _

theorem top_append (q : Path (Ptr × δ)) (f : Frame (Ptr × δ)) (p p' : Path (Ptr × δ)) (f' : Frame (Ptr × δ)) : q ≠ [] → top (q ++ f :: p) = top (q ++ f' :: p') := by
  cases q with
  | nil => intro h; exact absurd rfl h
  | cons g q => intro _; cases g <;> rfl

theorem addrs_zip_perm (q : Path (Ptr × δ)) : ∀ (t : Tree (Ptr × δ)), (addrs (zip q t)).Perm (pathAddrs q ++ addrs t) := by
  induction q with
  | nil => intro t; exact List.Perm.refl _
  | cons f q ih =>
    intro t
    cases f with
    | left c x r =>
      refine (ih _).trans ?_
      rw [Frame.plug, addrs_node]
      exact (perm_left _ _ _ _).symm
    | right c l x =>
      refine (ih _).trans ?_
      rw [Frame.plug, addrs_node]
      exact (perm_right _ _ _ _).symm

set_option maxHeartbeats 4000000 in
/-- the successor is taken out of the right subtree `zip q (successor)` -/
theorem eraseMid_ok {q : Path (Ptr × δ)} {c sc : Color} {child : Tree (Ptr × δ)} {x sx : Ptr × δ} {pp lp : Ptr}
    (hq : ∀ f ∈ q, ∃ c x r, f = .left c x r)
    (hold : Cell h x.1 pp c lp (ptr (zip q (.node sc .nil sx child))) x.2)
    (hr : Rep h x.1 (zip q (.node sc .nil sx child)))
    (hnd : (x.1 :: addrs (zip q (.node sc .nil sx child))).Nodup) :
    ∃ h' c0 l0, eraseMid h x.1 sx.1 (ptr child) (topD x.1 q) = some (h', topD sx.1 q) ∧
      Cell h' sx.1 c0 sc l0 (ptr (zip q child)) sx.2 ∧ Rep h' sx.1 (zip q child) ∧ h'.root = h.root ∧
      (∀ b, b ∈ pathAddrs q ∨ b ∈ addrs child → b ≠ sx.1 ∧ b ≠ x.1) ∧ sx.1 ≠ x.1 ∧
      ∀ b, b ∉ pathAddrs q → b ∉ addrs child → b ≠ sx.1 → h'.mem b = h.mem b := by
  cases q with
  | nil =>
    simp only [zip, addrs_node, addrs_nil, List.nil_append, List.nodup_cons, List.mem_cons, not_or] at hnd
    refine ⟨h, _, _, by simp [eraseMid, topD], hr.1, hr.2.2, rfl, ?_, by grind, fun _ _ _ _ => rfl⟩
    intro b hb
    simp only [pathAddrs, List.not_mem_nil, false_or] at hb
    grind
  | cons f q =>
    obtain ⟨fc, fx, fr, rfl⟩ := hq _ (List.mem_cons_self ..)
    have hr' := (rep_zip _ _ _ _).1 hr
    obtain ⟨⟨hf, hfr, hs⟩, hsx, _, hch⟩ := hr'
    have hmz : ∀ b, b ∈ addrs (zip (.left fc fx fr :: q) (.node sc .nil sx child)) ↔ b ∈ pathAddrs (.left fc fx fr :: q) ∨ b = sx.1 ∨ b ∈ addrs child := by
      intro b; rw [mem_addrs_zip, addrs_node]; simp [addrs_nil]
    have hnz : (pathAddrs (.left fc fx fr :: q) ++ (sx.1 :: addrs child)).Nodup := by
      have h2 := (List.nodup_cons.1 hnd).2
      rw [(addrs_zip_perm _ _).nodup_iff, addrs_node] at h2
      simpa [addrs_nil] using h2
    have hxn : ∀ b, b ∈ pathAddrs (.left fc fx fr :: q) ∨ b = sx.1 ∨ b ∈ addrs child → b ≠ x.1 := by
      intro b hb e
      exact (List.nodup_cons.1 hnd).1 (e ▸ (hmz b).2 hb)
    simp only [pathAddrs, List.nodup_append, List.nodup_cons, List.cons_append, List.mem_append, List.mem_cons] at hnz hxn
    have hfx : fx.1 ≠ x.1 := hxn _ (by simp)
    -- 303-304: `if (child) rb_set_parent(child, parent)`
    obtain ⟨h1, e1, c1, r1, o1⟩ := hch.reparent (by grind) hf.2.1
    have hf1 : Cell h1 fx.1 (topD x.1 q) fc sx.1 (ptr fr) fx.2 := hf.frame (o1 _ (by grind))
    -- 305
    obtain ⟨h2, e2, c2, o2⟩ := hf1.setLeft (ptr child)
    have hold2 : Cell h2 x.1 pp c lp (ptr (zip (.left fc fx fr :: q) (.node sc .nil sx child))) x.2 :=
      hold.frame (by rw [o2.2 _ (by grind), o1 _ (by grind)])
    obtain ⟨wo, l2, _, _⟩ := hold2.load
    have hsx2 : Cell h2 sx.1 fx.1 sc 0 (ptr child) sx.2 := hsx.frame (by rw [o2.2 _ (by grind), o1 _ (by grind)])
    -- 307
    obtain ⟨h3, e3, c3, o3⟩ := hsx2.setRight (ptr (zip (.left fc fx fr :: q) (.node sc .nil sx child)))
    have hrep3 : Rep h3 x.1 (zip (.left fc fx fr :: q) child) := by
      rw [rep_zip]
      refine ⟨⟨c2.frame (by rw [o3.2 _ (by grind)]), ?_, ?_⟩, ?_⟩
      · exact hfr.frame (fun b hb => by rw [o3.2 b (by grind), o2.2 b (by grind), o1 b (by grind)])
      · exact hs.frame (fun b hb => by rw [o3.2 b (by grind), o2.2 b (by grind), o1 b (by grind)])
      · exact c1.frame (fun b hb => by rw [o3.2 b (by grind), o2.2 b (by grind)])
    have hpz := ptr_zip q (.left fc fx fr) (.node sc .nil sx child) child
    have hmz' : ∀ b, b ∈ addrs (zip (.left fc fx fr :: q) child) ↔ b ∈ pathAddrs (.left fc fx fr :: q) ∨ b ∈ addrs child := fun b => mem_addrs_zip b _ _
    simp only [pathAddrs, List.mem_cons, List.mem_append] at hmz'
    have hndz : (addrs (zip (.left fc fx fr :: q) child)).Nodup := by
      rw [(addrs_zip_perm _ _).nodup_iff]
      simp only [pathAddrs, List.cons_append, List.nodup_append, List.nodup_cons, List.mem_append]
      grind
    -- 308
    obtain ⟨h4, e4, c4, r4, o4⟩ := hrep3.reparent hndz hsx.2.1
    have hz0 : ptr (zip (.left fc fx fr :: q) child) ≠ 0 :=
      fun e => zip_ne_nil (p := q) (t := (Frame.left fc fx fr).plug child) (by simp [Frame.plug]) ((hrep3.ptr_zero).1 e)
    unfold setParentIf at e4
    rw [if_pos hz0] at e4
    have hsx4 : Cell h4 sx.1 fx.1 sc 0 (ptr (zip (.left fc fx fr :: q) child)) sx.2 := by
      rw [hpz] at c3
      exact c3.frame (o4 _ (by rw [hmz']; grind))
    refine ⟨h4, _, _, ?_, hsx4, c4, by rw [r4, o3.1, o2.1, r1], ?_, hxn _ (by simp), ?_⟩
    · unfold eraseMid
      rw [if_neg (by exact hfx)]
      simp only [topD, Option.bind_eq_bind, e1, e2, l2, e3, Option.bind_some]
      rw [hpz, e4]
      rfl
    · intro b hb
      simp only [pathAddrs, List.mem_cons, List.mem_append] at hb
      exact ⟨by grind, hxn b (by grind)⟩
    · intro b hb1 hb2 hb3
      simp only [pathAddrs, List.mem_cons, List.mem_append] at hb1
      rw [o4 b (by rw [hmz']; grind), o3.2 b hb3, o2.2 b (by grind), o1 b (by grind)]

set_option maxHeartbeats 4000000 in
/-- unlinking a node with two children -/
theorem eraseTwo_refines {c sc : Color} {l r child t' : Tree (Ptr × δ)} {x sx : Ptr × δ} {q : Path (Ptr × δ)} (hi : Is h (zip p (.node c l x r)))
    (hl0 : l ≠ .nil) (hd : RB.descendLeft r [] = some (sc, sx, child, q)) (he : RB.eraseFinish sc child (q ++ .right c l sx :: p) = some t') :
    ∃ h', eraseTwo h x.1 = some h' ∧ Cut h (zip p (.node c l x r)) x.1 h' t' := by
  have hq := descendLeft_left r [] hd (by simp)
  have hzr : zip q (.node sc .nil sx child) = r := by
    have hrn : r ≠ .nil := by intro e; subst e; simp [RB.descendLeft] at hd
    obtain ⟨c', x', r', q', d1, d2, _⟩ := RB.descendLeft_ok r [] hrn
    rw [hd] at d1
    simp only [Option.some.injEq, Prod.mk.injEq] at d1
    obtain ⟨rfl, rfl, rfl, rfl⟩ := d1
    exact d2
  obtain ⟨hctx, ⟨hx, hl, hr⟩, hnd⟩ := hi.z
  have hgo := goLeft_refines r [] _ hr hd
  have hpa := top_aligned hctx
  obtain ⟨wx, lx, px, cx⟩ := hx.load
  have hpr : (addrs r).Perm (pathAddrs q ++ (sx.1 :: addrs child)) := by
    rw [← hzr]
    have := addrs_zip_perm q (.node sc .nil sx child)
    simpa [addrs_node, addrs_nil] using this
  have hmr : ∀ b, b ∈ addrs r ↔ b ∈ pathAddrs q ∨ b = sx.1 ∨ b ∈ addrs child := by
    intro b; rw [hpr.mem_iff]; simp
  simp only [addrs_node, List.nodup_append, List.nodup_cons, List.mem_append, List.mem_cons] at hnd
  -- 286-293: the parent of `old`
  rw [ptr_node] at hctx
  obtain ⟨h1, e1, _, c1, o1⟩ := hctx.relink hx.1 (by grind) (by grind) sx.1
  have hx1 : Cell h1 x.1 (top p) c (ptr l) (ptr (zip q (.node sc .nil sx child))) x.2 := by
    rw [hzr]; exact hx.frame (o1 _ (by grind))
  have hr1 : Rep h1 x.1 (zip q (.node sc .nil sx child)) := by
    rw [hzr]; exact hr.frame (fun b hb => o1 b (by grind))
  obtain ⟨ws, l1, p1, k1⟩ := ((rep_zip _ _ _ _).1 hr1).2.1.load
  obtain ⟨h2, c0, l0, e2, c2, r2, root2, hne, hsx, o2⟩ := eraseMid_ok hq hx1 hr1 (by rw [hzr, List.nodup_cons]; grind)
  have hnq : ∀ b, b ∈ pathAddrs q ∨ b ∈ addrs child → b ∈ addrs r ∧ b ≠ sx.1 := by
    intro b hb; exact ⟨(hmr b).2 (by grind), (hne b hb).1⟩
  have hx2 : Cell h2 x.1 (top p) c (ptr l) (ptr (zip q (.node sc .nil sx child))) x.2 :=
    hx1.frame (o2 _ (fun e => (hne _ (Or.inl e)).2 rfl) (fun e => (hne _ (Or.inr e)).2 rfl) (Ne.symm hsx))
  obtain ⟨wo, l2, p2, k2⟩ := hx2.load
  obtain ⟨w2, m2, _, _⟩ := c2.load
  have hsr : sx.1 ∈ addrs r := (hmr _).2 (by simp)
  -- 312
  have e3 := modify_some m2 (fun n => { n with pc := wo })
  have o3 := off_set h2 sx.1 { (⟨w2, l0, ptr (zip q child), sx.2⟩ : Node δ) with pc := wo }
  have c3 : Cell (h2.set sx.1 { (⟨w2, l0, ptr (zip q child), sx.2⟩ : Node δ) with pc := wo }) sx.1 (top p) c l0 (ptr (zip q child)) sx.2 :=
    ⟨c2.1, c2.2.1, wo, set_mem _ _ _, p2, k2⟩
  generalize h2.set sx.1 { (⟨w2, l0, ptr (zip q child), sx.2⟩ : Node δ) with pc := wo } = h3 at e3 o3 c3
  -- 313
  obtain ⟨h4, e4, c4, o4⟩ := c3.setLeft (ptr l)
  -- 314
  have hl4 : Rep h4 x.1 l := hl.frame (fun b hb => by
    have hb1 : b ∉ addrs r := by grind
    rw [o4.2 b (by grind), o3.2 b (by grind), o2 b (by grind) (by grind) (by grind), o1 b (by grind)])
  obtain ⟨h5, e5, c5, r5, o5⟩ := hl4.reparent (by grind) c2.2.1
  have hlz : ptr l ≠ 0 := fun e => hl0 ((hl.ptr_zero).1 e)
  unfold setParentIf at e5
  rw [if_pos hlz] at e5
  have hz : IsZ h5 p (.node c l sx (zip q child)) := by
    refine ⟨?_, ⟨?_, c5, ?_⟩, ?_⟩
    · refine c1.frame (by rw [r5, o4.1, o3.1, root2]) (fun b hb => ?_)
      have hb1 : b ∉ addrs r := by grind
      rw [o5 b (by grind), o4.2 b (by grind), o3.2 b (by grind), o2 b (by grind) (by grind) (by grind)]
    · exact c4.frame (o5 _ (by grind))
    · refine r2.frame (fun b hb => ?_)
      have hb1 := hnq b ((mem_addrs_zip b q child).1 hb)
      rw [o5 b (by grind), o4.2 b (by grind), o3.2 b (by grind)]
    · have hzp := addrs_zip_perm q child
      have hzm : ∀ b, b ∈ addrs (zip q child) ↔ b ∈ pathAddrs q ∨ b ∈ addrs child := fun b => mem_addrs_zip b _ _
      have hzn : (addrs (zip q child)).Nodup := by
        rw [hzp.nodup_iff]
        have : (pathAddrs q ++ (sx.1 :: addrs child)).Nodup := hpr.nodup_iff.1 (by grind)
        simp only [List.nodup_append, List.nodup_cons, List.mem_cons] at this ⊢
        grind
      simp only [addrs_node, List.nodup_append, List.nodup_cons, List.mem_append, List.mem_cons]
      grind
  have hcut : Cut h (zip p (.node c l x r)) x.1 h5 (zip (q ++ .right c l sx :: p) child) := by
    rw [RB.zip_append]
    refine ⟨(isZ_iff h5 p (.node c l sx (zip q child))).1 hz, fun b hb => ?_, fun b => ?_⟩
    · simp only [mem_addrs_zip, addrs_node, List.mem_append, List.mem_cons] at hb
      have hb1 : b ∉ addrs r := by grind
      rw [o5 b (by grind), o4.2 b (by grind), o3.2 b (by grind), o2 b (by grind) (by grind) (by grind), o1 b (by grind)]
    · rw [show zip (.right c l sx :: p) (zip q child) = zip p (.node c l sx (zip q child)) from rfl]
      simp only [mem_addrs_zip, addrs_node, List.mem_append, List.mem_cons]
      have := hmr b
      have := hnq b
      grind
  obtain ⟨h6, e6, t6⟩ := eraseFinish_refines hcut.is he
  refine ⟨h6, ?_, hcut.to t6⟩
  have htop : top (q ++ .right c l sx :: p) = topD sx.1 q := by
    cases q with
    | nil => rfl
    | cons g q => cases g <;> rfl
  rw [htop] at e6
  unfold eraseTwo
  simp only [Option.bind_eq_bind, lx, Option.bind_some, px, hgo, e1, l1, p1, k1, e2, l2, e3, e4, e5, e6]

/-- **`rb_erase` does on the heap what the functional model does on the tree**: the node is out of the tree, no other node is lost, and no memory outside the tree is touched. -/
theorem erase_refines {c : Color} {l r t' : Tree (Ptr × δ)} {x : Ptr × δ} (hi : Is h (zip p (.node c l x r)))
    (he : RB.erase p (.node c l x r) = some t') : ∃ h', erase h x.1 = some h' ∧ Cut h (zip p (.node c l x r)) x.1 h' t' := by
  obtain ⟨w, e1, _, _⟩ := hi.load
  unfold erase
  simp only [Option.bind_eq_bind, e1, Option.bind_some]
  cases l with
  | nil =>
    simp only [RB.erase] at he
    rw [if_pos (by rfl)]
    exact eraseOne_refines hi (Or.inl ⟨rfl, rfl⟩) he
  | node lc ll lx lr =>
    have hl0 : ptr (Tree.node lc ll lx lr) ≠ 0 := hi.z.2.1.2.1.1.1
    rw [if_neg hl0]
    cases r with
    | nil =>
      simp only [RB.erase] at he
      rw [if_pos (by rfl)]
      exact eraseOne_refines hi (Or.inr ⟨rfl, rfl⟩) he
    | node rc rl rx rr =>
      have hr0 : ptr (Tree.node rc rl rx rr) ≠ 0 := hi.z.2.1.2.2.1.1
      rw [if_neg hr0]
      simp only [RB.erase] at he
      split at he
      · cases he
      · rename_i sc sx child q hd
        exact eraseTwo_refines hi (by simp) hd he

end Kasync.RBHeap
