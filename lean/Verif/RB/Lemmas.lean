import Verif.RB.Spec

/-! Helper lemmas for the red-black tree. -/

namespace Kasync.RB

variable {α κ : Type}

/-- colour of the parent described by a frame -/
def Frame.color : Frame α → Color
  | .left c _ _ => c
  | .right c _ _ => c

/-- sibling subtree -/
def Frame.sib : Frame α → Tree α
  | .left _ _ r => r
  | .right _ l _ => l

/-- the context `p` accepts a subtree of black height `n` -/
def CtxOK : Path α → Nat → Prop
  | [], _ => True
  | f :: p, n =>
    f.sib.BH n ∧ f.sib.NoRR ∧
    (f.color = .red → f.sib.isRed = false ∧ ∃ g q, p = g :: q ∧ g.color = .black) ∧
    CtxOK p (match f.color with | .black => n + 1 | .red => n)

def before : Path α → List α
  | [] => []
  | .left _ _ _ :: p => before p
  | .right _ l x :: p => before p ++ l.inorder ++ [x]

def after : Path α → List α
  | [] => []
  | .left _ x r :: p => x :: r.inorder ++ after p
  | .right _ _ _ :: p => after p

@[simp] theorem isRed_nil : (Tree.nil : Tree α).isRed = false := rfl
@[simp] theorem isRed_red (l : Tree α) (x : α) (r : Tree α) : (Tree.node .red l x r).isRed = true := rfl
@[simp] theorem isRed_black (l : Tree α) (x : α) (r : Tree α) : (Tree.node .black l x r).isRed = false := rfl

theorem inorder_zip (p : Path α) (t : Tree α) :
    (zip p t).inorder = before p ++ t.inorder ++ after p := by
  induction p generalizing t with
  | nil => simp [zip, before, after]
  | cons f p ih =>
    cases f <;> simp [zip, ih, before, after, Frame.plug, Tree.inorder]

@[simp] theorem inorder_setBlack (t : Tree α) : t.setBlack.inorder = t.inorder := by
  cases t <;> rfl

@[simp] theorem isRed_setBlack (t : Tree α) : t.setBlack.isRed = false := by
  cases t <;> rfl

theorem setBlack_of_not_red {t : Tree α} (h : t.isRed = false) : t.setBlack = t := by
  rcases t with _ | ⟨c, l, x, r⟩
  · rfl
  · cases c <;> simp_all [Tree.setBlack]

theorem NoRR.setBlack {t : Tree α} (h : t.NoRR) : t.setBlack.NoRR := by
  rcases t with _ | ⟨c, l, x, r⟩
  · trivial
  · simp_all [Tree.NoRR, Tree.setBlack]

theorem BH.setBlack_red {t : Tree α} {n : Nat} (h : t.BH n) (hr : t.isRed = true) : t.setBlack.BH (n+1) := by
  rcases t with _ | ⟨_ | _, l, x, r⟩ <;> simp_all [Tree.BH, Tree.setBlack]

theorem BH.setBlack_ex {t : Tree α} {n : Nat} (h : t.BH n) : ∃ m, t.setBlack.BH m := by
  cases hr : t.isRed
  · exact ⟨n, by rwa [setBlack_of_not_red hr]⟩
  · exact ⟨n+1, BH.setBlack_red h hr⟩

theorem Valid.setBlack {t : Tree α} (h : Valid t) : Valid t.setBlack := by
  rwa [setBlack_of_not_red h.1]

/-- plugging -/
theorem zip_valid {p : Path α} {t : Tree α} {n : Nat} (hp : CtxOK p n) (hb : t.BH n) (hn : t.NoRR)
    (hr : t.isRed = true → ∃ g q, p = g :: q ∧ g.color = .black) : Valid (zip p t) := by
  induction p generalizing t n with
  | nil =>
    refine ⟨?_, hn, n, hb⟩
    cases h : t.isRed
    · exact h
    · obtain ⟨g, q, h1, _⟩ := hr h; cases h1
  | cons f p ih =>
    obtain ⟨h1, h2, h3, h4⟩ := hp
    rcases f with ⟨c, x, r⟩ | ⟨c, l, x⟩ <;> cases c <;>
      simp only [Frame.sib, Frame.color, zip, Frame.plug] at * <;>
      refine ih h4 ?_ ?_ ?_ <;>
      simp_all [Tree.BH, Tree.NoRR]

/-- unplugging -/
theorem zip_inv {p : Path α} {t : Tree α} (h : Valid (zip p t)) :
    ∃ n, CtxOK p n ∧ t.BH n ∧ t.NoRR ∧ (t.isRed = true → ∃ g q, p = g :: q ∧ g.color = .black) := by
  induction p generalizing t with
  | nil =>
    obtain ⟨h1, h2, n, h3⟩ := h
    simp only [zip] at *
    exact ⟨n, trivial, h3, h2, by simp [h1]⟩
  | cons f p ih =>
    obtain ⟨n, h1, h2, h3, h4⟩ := ih (t := f.plug t) h
    rcases f with ⟨c, x, r⟩ | ⟨c, l, x⟩ <;> cases c <;>
      simp only [Frame.plug, Tree.BH, Tree.NoRR, isRed_red, isRed_black] at h2 h3 h4
    · exact ⟨n, ⟨h2.2, h3.2.2, fun _ => ⟨(h3.1 trivial).2, h4 trivial⟩, h1⟩, h2.1, h3.2.1, by simp [(h3.1 trivial).1]⟩
    · obtain ⟨m, rfl, h5, h6⟩ := h2
      exact ⟨m, ⟨h6, h3.2.2, by simp [Frame.color], h1⟩, h5, h3.2.1, fun _ => ⟨_, _, rfl, rfl⟩⟩
    · exact ⟨n, ⟨h2.1, h3.2.1, fun _ => ⟨(h3.1 trivial).1, h4 trivial⟩, h1⟩, h2.2, h3.2.2, by simp [(h3.1 trivial).2]⟩
    · obtain ⟨m, rfl, h5, h6⟩ := h2
      exact ⟨m, ⟨h5, h3.2.1, by simp [Frame.color], h1⟩, h6, h3.2.2, fun _ => ⟨_, _, rfl, rfl⟩⟩

/-- the repair after an insertion succeeds, keeps the listing and yields a red-black tree -/
theorem insertColor_ok (n : Tree α) (p : Path α) (k : Nat) (hp : CtxOK p k) (hb : n.BH k) (hn : n.NoRR)
    (hr : n.isRed = true) :
    ∃ t, insertColor n p = some t ∧ Valid t ∧ t.inorder = (zip p n).inorder := by
  fun_induction insertColor n p generalizing k with
  | case1 n => 
    exact ⟨_, rfl, ⟨by simp, NoRR.setBlack hn, BH.setBlack_ex hb⟩, by simp [zip]⟩
  | case2 n x r p =>
    refine ⟨_, rfl, ?_, by simp [zip, Frame.plug]⟩
    exact (zip_valid (p := .left .black x r :: p) hp hb hn (fun _ => ⟨_, _, rfl, rfl⟩)).setBlack
  | case3 n l x p =>
    refine ⟨_, rfl, ?_, by simp [zip, Frame.plug]⟩
    exact (zip_valid (p := .right .black l x :: p) hp hb hn (fun _ => ⟨_, _, rfl, rfl⟩)).setBlack
  | case4 n x r =>
    have := (hp.2.2.1 rfl).2; simp at this
  | case5 n l x =>
    have := (hp.2.2.1 rfl).2; simp at this
  | case6 n px pr gc gx u p hu ih =>
    obtain ⟨h1, h2, h3, h4, h5, h6, h7⟩ := hp
    simp only [Frame.sib, Frame.color] at *
    obtain ⟨h8, g, q, h9, h10⟩ := h3 trivial
    cases h9; try dsimp only [Frame.color] at h10
    subst h10
    obtain ⟨t, ht1, ht2, ht3⟩ := ih (k+1) h7
      ⟨⟨k, rfl, hb, h1⟩, BH.setBlack_red h4 hu⟩
      (by simp [Tree.NoRR, hn, h2, NoRR.setBlack h5]) rfl
    exact ⟨t, ht1, ht2, by rw [ht3]; simp [zip, Frame.plug, inorder_zip, Tree.inorder]⟩
  | case7 n px pr gc gx u p hu =>
    obtain ⟨h1, h2, h3, h4, h5, h6, h7⟩ := hp
    simp only [Frame.sib, Frame.color] at *
    obtain ⟨h8, g, q, h9, h10⟩ := h3 trivial
    cases h9; try dsimp only [Frame.color] at h10
    subst h10
    refine ⟨_, rfl, (zip_valid h7 ?_ ?_ ?_).setBlack, by simp [zip, Frame.plug, inorder_zip, Tree.inorder]⟩
    all_goals simp_all [Tree.BH, Tree.NoRR]
  | case8 n pl px gc gx u p hu ih =>
    obtain ⟨h1, h2, h3, h4, h5, h6, h7⟩ := hp
    simp only [Frame.sib, Frame.color] at *
    obtain ⟨h8, g, q, h9, h10⟩ := h3 trivial
    cases h9; try dsimp only [Frame.color] at h10
    subst h10
    obtain ⟨t, ht1, ht2, ht3⟩ := ih (k+1) h7
      ⟨⟨k, rfl, h1, hb⟩, BH.setBlack_red h4 hu⟩
      (by simp [Tree.NoRR, hn, h2, NoRR.setBlack h5]) rfl
    exact ⟨t, ht1, ht2, by rw [ht3]; simp [zip, Frame.plug, inorder_zip, Tree.inorder]⟩
  | case9 => simp at hr
  | case10 pl px gc gx u p hu nc nl nx nr =>
    obtain ⟨h1, h2, h3, h4, h5, h6, h7⟩ := hp
    simp only [Frame.sib, Frame.color] at *
    obtain ⟨h8, g, q, h9, h10⟩ := h3 trivial
    cases h9; try dsimp only [Frame.color] at h10
    subst h10
    cases nc <;> simp at hr
    refine ⟨_, rfl, (zip_valid h7 ?_ ?_ ?_).setBlack, by simp [zip, Frame.plug, inorder_zip, Tree.inorder]⟩
    all_goals simp_all [Tree.BH, Tree.NoRR]
  | case11 n pl px gc u gx p hu ih =>
    obtain ⟨h1, h2, h3, h4, h5, h6, h7⟩ := hp
    simp only [Frame.sib, Frame.color] at *
    obtain ⟨h8, g, q, h9, h10⟩ := h3 trivial
    cases h9; try dsimp only [Frame.color] at h10
    subst h10
    obtain ⟨t, ht1, ht2, ht3⟩ := ih (k+1) h7
      ⟨BH.setBlack_red h4 hu, ⟨k, rfl, h1, hb⟩⟩
      (by simp [Tree.NoRR, hn, h2, NoRR.setBlack h5]) rfl
    exact ⟨t, ht1, ht2, by rw [ht3]; simp [zip, Frame.plug, inorder_zip, Tree.inorder]⟩
  | case12 n pl px gc u gx p hu =>
    obtain ⟨h1, h2, h3, h4, h5, h6, h7⟩ := hp
    simp only [Frame.sib, Frame.color] at *
    obtain ⟨h8, g, q, h9, h10⟩ := h3 trivial
    cases h9; try dsimp only [Frame.color] at h10
    subst h10
    refine ⟨_, rfl, (zip_valid h7 ?_ ?_ ?_).setBlack, by simp [zip, Frame.plug, inorder_zip, Tree.inorder]⟩
    all_goals simp_all [Tree.BH, Tree.NoRR]
  | case13 n px pr gc u gx p hu ih =>
    obtain ⟨h1, h2, h3, h4, h5, h6, h7⟩ := hp
    simp only [Frame.sib, Frame.color] at *
    obtain ⟨h8, g, q, h9, h10⟩ := h3 trivial
    cases h9; try dsimp only [Frame.color] at h10
    subst h10
    obtain ⟨t, ht1, ht2, ht3⟩ := ih (k+1) h7
      ⟨BH.setBlack_red h4 hu, ⟨k, rfl, hb, h1⟩⟩
      (by simp [Tree.NoRR, hn, h2, NoRR.setBlack h5]) rfl
    exact ⟨t, ht1, ht2, by rw [ht3]; simp [zip, Frame.plug, inorder_zip, Tree.inorder]⟩
  | case14 => simp at hr
  | case15 px pr gc u gx p hu nc nl nx nr =>
    obtain ⟨h1, h2, h3, h4, h5, h6, h7⟩ := hp
    simp only [Frame.sib, Frame.color] at *
    obtain ⟨h8, g, q, h9, h10⟩ := h3 trivial
    cases h9; try dsimp only [Frame.color] at h10
    subst h10
    cases nc <;> simp at hr
    refine ⟨_, rfl, (zip_valid h7 ?_ ?_ ?_).setBlack, by simp [zip, Frame.plug, inorder_zip, Tree.inorder]⟩
    all_goals simp_all [Tree.BH, Tree.NoRR]

/-- contribution of a colour to the black count -/
def Color.cnt : Color → Nat
  | .black => 1
  | .red => 0

theorem BH_node {c : Color} {l r : Tree α} {x : α} {n : Nat} (hl : l.BH n) (hr : r.BH n) :
    (Tree.node c l x r).BH (n + c.cnt) := by
  cases c <;> simp_all [Tree.BH, Color.cnt]

theorem not_red_of_BH_succ {o : Tree α} {m : Nat} (h : o.BH (m+1)) :
    ∃ c l x r, o = .node c l x r := by
  cases o with
  | nil => simp [Tree.BH] at h
  | node c l x r => exact ⟨_, _, _, _, rfl⟩

theorem eraseLeft_ok (n : Tree α) (pc : Color) (px : α) (o : Tree α) (m : Nat)
    (hn : n.BH m) (hn2 : n.NoRR) (hnr : n.isRed = false)
    (ho : o.BH (m+1)) (ho2 : o.NoRR) (hor : o.isRed = false) :
    (∃ t, eraseLeft n pc px o = some (.up t) ∧ t.inorder = n.inorder ++ px :: o.inorder ∧
      t.BH (m + pc.cnt) ∧ t.setBlack.NoRR ∧ (t.isRed = true ↔ pc = .red)) ∨
    (∃ t, eraseLeft n pc px o = some (.done t) ∧ t.inorder = n.inorder ++ px :: o.inorder ∧
      t.BH (m + 1 + pc.cnt) ∧ t.NoRR ∧ (t.isRed = true → pc = .red)) := by
  obtain ⟨c, ol, ox, or, rfl⟩ := not_red_of_BH_succ ho
  cases c
  · simp at hor
  simp only [Tree.BH, Tree.NoRR] at ho ho2
  obtain ⟨m', h0, ho, ho'⟩ := ho
  obtain rfl : m = m' := by omega
  simp only [eraseLeft]
  split
  · rename_i h
    refine .inl ⟨_, rfl, by simp [Tree.inorder], BH_node hn ⟨ho, ho'⟩, ?_, ?_⟩
    · simp_all [Tree.NoRR, Tree.setBlack]
    · cases pc <;> simp
  · split
    · rename_i h1 h2
      rcases ol with _ | ⟨_ | _, oll, olx, olr⟩
      · simp [h2] at h1
      · refine .inr ⟨_, rfl, by simp [Tree.inorder], BH_node ⟨m, rfl, hn, ho.1⟩ ⟨m, rfl, ho.2, ho'⟩, ?_, ?_⟩
        · simp_all [Tree.NoRR]
        · cases pc <;> simp
      · simp [h2] at h1
    · rename_i h1 h2
      simp only [Bool.not_eq_false] at h2
      refine .inr ⟨_, rfl, by simp [Tree.inorder], BH_node ⟨m, rfl, hn, ho⟩ (BH.setBlack_red ho' h2), ?_, ?_⟩
      · have := NoRR.setBlack ho2.2.2
        simp_all [Tree.NoRR]
      · cases pc <;> simp

theorem eraseRight_ok (n : Tree α) (pc : Color) (px : α) (o : Tree α) (m : Nat)
    (hn : n.BH m) (hn2 : n.NoRR) (hnr : n.isRed = false)
    (ho : o.BH (m+1)) (ho2 : o.NoRR) (hor : o.isRed = false) :
    (∃ t, eraseRight n pc px o = some (.up t) ∧ t.inorder = o.inorder ++ px :: n.inorder ∧
      t.BH (m + pc.cnt) ∧ t.setBlack.NoRR ∧ (t.isRed = true ↔ pc = .red)) ∨
    (∃ t, eraseRight n pc px o = some (.done t) ∧ t.inorder = o.inorder ++ px :: n.inorder ∧
      t.BH (m + 1 + pc.cnt) ∧ t.NoRR ∧ (t.isRed = true → pc = .red)) := by
  obtain ⟨c, ol, ox, or, rfl⟩ := not_red_of_BH_succ ho
  cases c
  · simp at hor
  simp only [Tree.BH, Tree.NoRR] at ho ho2
  obtain ⟨m', h0, ho, ho'⟩ := ho
  obtain rfl : m = m' := by omega
  simp only [eraseRight]
  split
  · rename_i h
    refine .inl ⟨_, rfl, by simp [Tree.inorder], BH_node ⟨ho, ho'⟩ hn, ?_, ?_⟩
    · simp_all [Tree.NoRR, Tree.setBlack]
    · cases pc <;> simp
  · split
    · rename_i h1 h2
      rcases or with _ | ⟨_ | _, orl, orx, orr⟩
      · simp [h2] at h1
      · refine .inr ⟨_, rfl, by simp [Tree.inorder], BH_node ⟨m, rfl, ho, ho'.1⟩ ⟨m, rfl, ho'.2, hn⟩, ?_, ?_⟩
        · simp_all [Tree.NoRR]
        · cases pc <;> simp
      · simp [h2] at h1
    · rename_i h1 h2
      simp only [Bool.not_eq_false] at h2
      refine .inr ⟨_, rfl, by simp [Tree.inorder], BH_node (BH.setBlack_red ho h2) ⟨m, rfl, ho', hn⟩, ?_, ?_⟩
      · have := NoRR.setBlack ho2.2.1
        simp_all [Tree.NoRR]
      · cases pc <;> simp

theorem CtxOK_cons_cnt {f : Frame α} {p : Path α} {n : Nat} (h : CtxOK (f :: p) n) :
    CtxOK p (n + f.color.cnt) := by
  have := h.2.2.2
  cases hc : f.color <;> simp_all [Color.cnt]

/-- the repair after a removal: the subtree `n` is one black node short -/
theorem eraseColor_ok (n : Tree α) (p : Path α) (m : Nat) (hp : CtxOK p (m+1)) (hb : n.BH m)
    (hn : n.setBlack.NoRR) :
    ∃ t, eraseColor n p = some t ∧ Valid t ∧ t.inorder = (zip p n).inorder := by
  have hfin : ∀ (n : Tree α) (p : Path α) (m : Nat), CtxOK p (m+1) → n.BH m → n.setBlack.NoRR →
      n.isRed = true → Valid (zip p n.setBlack) := by
    intro n p m hp hb hn hr
    exact zip_valid hp (BH.setBlack_red hb hr) hn (by simp)
  induction p generalizing n m with
  | nil =>
    refine ⟨_, rfl, ⟨by simp, hn, BH.setBlack_ex hb⟩, by simp [zip]⟩
  | cons f p ih =>
    have hcn := CtxOK_cons_cnt hp
    rcases f with ⟨pc, px, o⟩ | ⟨pc, o, px⟩
    · unfold eraseColor
      cases hr : n.isRed
      · rw [if_neg (by simp)]
        rw [setBlack_of_not_red hr] at hn
        obtain ⟨h1, h2, h3, h4⟩ := hp
        simp only [Frame.sib, Frame.color] at h1 h2 h3 h4 hcn
        obtain ⟨oc, ol, ox, or, rfl⟩ := not_red_of_BH_succ h1
        cases oc
        · -- red sibling
          have hpc : pc = .black := by
            cases pc
            · simp at h3
            · rfl
          subst hpc
          have hctx : CtxOK (.left .black ox or :: p) (m+1) := ⟨h1.2, h2.2.2, by simp [Frame.color], hcn⟩
          obtain ⟨ho1, ho2⟩ := h2.1 rfl
          rcases eraseLeft_ok n .red px ol m hb hn hr h1.1 h2.2.1 ho1 with
            ⟨t, e1, e2, e3, e4, e5⟩ | ⟨t, e1, e2, e3, e4, e5⟩
          · simp only [e1]
            refine ⟨_, rfl, hfin t _ m hctx (by simpa [Color.cnt] using e3) e4 (e5.2 rfl), ?_⟩
            simp [inorder_zip, zip, Frame.plug, Tree.inorder, e2]
          · simp only [e1, eraseDone]
            refine ⟨_, rfl, (zip_valid hctx (by simpa [Color.cnt] using e3) e4
              (fun _ => ⟨_, _, rfl, rfl⟩)).setBlack, ?_⟩
            simp [inorder_zip, zip, Frame.plug, Tree.inorder, e2]
        · rcases eraseLeft_ok n pc px (.node .black ol ox or) m hb hn hr h1 h2 rfl with
            ⟨t, e1, e2, e3, e4, e5⟩ | ⟨t, e1, e2, e3, e4, e5⟩
          · simp only [e1]
            obtain ⟨t', a1, a2, a3⟩ := ih t (m + pc.cnt) (by rwa [Nat.add_right_comm]) e3 e4
            refine ⟨t', a1, a2, ?_⟩
            rw [a3]; simp [inorder_zip, zip, Frame.plug, Tree.inorder, e2]
          · simp only [e1, eraseDone]
            refine ⟨_, rfl, (zip_valid hcn e3 e4 ?_).setBlack, ?_⟩
            · intro h; exact (h3 (e5 h)).2
            · simp [inorder_zip, zip, Frame.plug, Tree.inorder, e2]
      · rw [if_pos rfl]
        exact ⟨_, rfl, hfin n _ m hp hb hn hr, by simp [inorder_zip]⟩
    · unfold eraseColor
      cases hr : n.isRed
      · rw [if_neg (by simp)]
        rw [setBlack_of_not_red hr] at hn
        obtain ⟨h1, h2, h3, h4⟩ := hp
        simp only [Frame.sib, Frame.color] at h1 h2 h3 h4 hcn
        obtain ⟨oc, ol, ox, or, rfl⟩ := not_red_of_BH_succ h1
        cases oc
        · have hpc : pc = .black := by
            cases pc
            · simp at h3
            · rfl
          subst hpc
          have hctx : CtxOK (.right .black ol ox :: p) (m+1) := ⟨h1.1, h2.2.1, by simp [Frame.color], hcn⟩
          obtain ⟨ho1, ho2⟩ := h2.1 rfl
          rcases eraseRight_ok n .red px or m hb hn hr h1.2 h2.2.2 ho2 with
            ⟨t, e1, e2, e3, e4, e5⟩ | ⟨t, e1, e2, e3, e4, e5⟩
          · simp only [e1]
            refine ⟨_, rfl, hfin t _ m hctx (by simpa [Color.cnt] using e3) e4 (e5.2 rfl), ?_⟩
            simp [inorder_zip, zip, Frame.plug, Tree.inorder, e2]
          · simp only [e1, eraseDone]
            refine ⟨_, rfl, (zip_valid hctx (by simpa [Color.cnt] using e3) e4
              (fun _ => ⟨_, _, rfl, rfl⟩)).setBlack, ?_⟩
            simp [inorder_zip, zip, Frame.plug, Tree.inorder, e2]
        · rcases eraseRight_ok n pc px (.node .black ol ox or) m hb hn hr h1 h2 rfl with
            ⟨t, e1, e2, e3, e4, e5⟩ | ⟨t, e1, e2, e3, e4, e5⟩
          · simp only [e1]
            obtain ⟨t', a1, a2, a3⟩ := ih t (m + pc.cnt) (by rwa [Nat.add_right_comm]) e3 e4
            refine ⟨t', a1, a2, ?_⟩
            rw [a3]; simp [inorder_zip, zip, Frame.plug, Tree.inorder, e2]
          · simp only [e1, eraseDone]
            refine ⟨_, rfl, (zip_valid hcn e3 e4 ?_).setBlack, ?_⟩
            · intro h; exact (h3 (e5 h)).2
            · simp [inorder_zip, zip, Frame.plug, Tree.inorder, e2]
      · rw [if_pos rfl]
        exact ⟨_, rfl, hfin n _ m hp hb hn hr, by simp [inorder_zip]⟩

theorem zip_append (p q : Path α) (t : Tree α) : zip (p ++ q) t = zip q (zip p t) := by
  induction p generalizing t with
  | nil => rfl
  | cons f p ih => simp [zip, ih]

/-- `descendLeft` reaches the first node of the subtree -/
theorem descendLeft_ok (t : Tree α) (p : Path α) (h : t ≠ .nil) :
    ∃ c x r q, descendLeft t p = some (c, x, r, q) ∧ zip q (.node c .nil x r) = zip p t ∧
      t.inorder ++ after p = x :: (r.inorder ++ after q) ∧ before q = before p ∧ ∃ q', q = q' ++ p := by
  fun_induction descendLeft t p with
  | case1 => exact absurd rfl h
  | case2 c x r p => exact ⟨c, x, r, p, rfl, rfl, by simp [Tree.inorder], rfl, [], rfl⟩
  | case3 c lc ll lx lr x r p ih =>
    obtain ⟨c', x', r', q, h1, h2, h3, h4, q', h5⟩ := ih (by simp)
    refine ⟨c', x', r', q, h1, by simpa [zip, Frame.plug] using h2, ?_, by simpa [before] using h4, q' ++ [_], by simp [h5]; rfl⟩
    rw [← h3]; simp [after, Tree.inorder]

/-- two contexts that only differ in the payload of one frame accept the same subtrees -/
theorem CtxOK_payload (q : Path α) (c : Color) (l : Tree α) (x y : α) (p : Path α) (n : Nat)
    (h : CtxOK (q ++ .right c l x :: p) n) : CtxOK (q ++ .right c l y :: p) n := by
  induction q generalizing n with
  | nil => exact h
  | cons f q ih =>
    obtain ⟨h1, h2, h3, h4⟩ := h
    refine ⟨h1, h2, ?_, ih _ h4⟩
    intro hc
    obtain ⟨h5, g, q2, h6, h7⟩ := h3 hc
    refine ⟨h5, ?_⟩
    cases q with
    | nil => simp at h6; exact ⟨_, _, rfl, by rw [← h6.1] at h7; exact h7⟩
    | cons g' q => simp at h6; exact ⟨_, _, rfl, by rw [h6.1]; exact h7⟩

theorem eraseFinish_ok (c : Color) (child : Tree α) (p : Path α) (n : Nat)
    (hp : CtxOK p n) (hb : ∃ m, n = m + c.cnt ∧ child.BH m) (hn : child.NoRR)
    (hcr : c = .red → child.isRed = false) :
    ∃ t, eraseFinish c child p = some t ∧ Valid t ∧ t.inorder = (zip p child).inorder := by
  obtain ⟨m, rfl, hb⟩ := hb
  cases c
  · refine ⟨_, rfl, zip_valid hp hb hn ?_, rfl⟩
    simp [hcr rfl]
  · exact eraseColor_ok child p m hp hb (NoRR.setBlack hn)

/-- `rb_erase` on any node of a red-black tree -/
theorem erase_ok (p : Path α) (c : Color) (l : Tree α) (x : α) (r : Tree α)
    (h : Valid (zip p (.node c l x r))) :
    ∃ t, erase p (.node c l x r) = some t ∧ Valid t ∧
      t.inorder = before p ++ l.inorder ++ r.inorder ++ after p := by
  obtain ⟨n, h1, h2, h3, h4⟩ := zip_inv h
  have hsub : ∃ m, n = m + c.cnt ∧ l.BH m ∧ r.BH m := by
    cases c
    · exact ⟨n, rfl, h2⟩
    · obtain ⟨m, rfl, h⟩ := h2; exact ⟨m, rfl, h⟩
  obtain ⟨m, hm, hl, hr⟩ := hsub
  rcases l with _ | ⟨lc, ll, lx, lr⟩
  · obtain ⟨t, e1, e2, e3⟩ := eraseFinish_ok c r p n h1 ⟨m, hm, hr⟩ h3.2.2 (fun hc => (h3.1 hc).2)
    exact ⟨t, by simpa [erase] using e1, e2, by rw [e3, inorder_zip]; simp [Tree.inorder]⟩
  · rcases r with _ | ⟨rc, rl, rx, rr⟩
    · obtain ⟨t, e1, e2, e3⟩ := eraseFinish_ok c (.node lc ll lx lr) p n h1 ⟨m, hm, hl⟩ h3.2.1
        (fun hc => (h3.1 hc).1)
      exact ⟨t, by simpa [erase] using e1, e2, by rw [e3, inorder_zip]; simp [Tree.inorder]⟩
    · obtain ⟨sc, sx, child, q, d1, d2, d3, d4, -⟩ := descendLeft_ok (.node rc rl rx rr) [] (by simp)
      simp only [zip, after, before, List.append_nil] at d2 d3 d4
      have hv : Valid (zip (q ++ .right c (.node lc ll lx lr) x :: p) (.node sc .nil sx child)) := by
        rw [zip_append, d2]; exact h
      obtain ⟨n', g1, g2, g3, g4⟩ := zip_inv hv
      have hch : ∃ m, n' = m + sc.cnt ∧ child.BH m := by
        cases sc
        · exact ⟨n', rfl, g2.2⟩
        · obtain ⟨m, rfl, h⟩ := g2; exact ⟨m, rfl, h.2⟩
      obtain ⟨t, e1, e2, e3⟩ := eraseFinish_ok sc child _ n' (CtxOK_payload q c _ x sx p n' g1) hch g3.2.2
        (fun hc => (g3.1 hc).2)
      refine ⟨t, by simpa [erase, d1] using e1, e2, ?_⟩
      have hz : (zip q child).inorder = child.inorder ++ after q := by rw [inorder_zip, d4]; rfl
      rw [e3, zip_append, zip, inorder_zip, d3]
      simp [Frame.plug, Tree.inorder, hz]

end Kasync.RB
