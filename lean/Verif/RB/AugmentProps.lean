import Verif.RB.Augment
import Verif.RB.Search

/-!
# C65: augmented trees keep every summary right
-/

namespace Kasync.RB.Augment

variable {ι σ : Type}

/-! ## Specification -/

/-- Every node's summary is what the callback computes from the node and its children's summaries. -/
def Correct (F : ι → Option σ → Option σ → σ) : Tree (ι × σ) → Prop
  | .nil => True
  | .node _ l x r => x.2 = F x.1 (sum l) (sum r) ∧ Correct F l ∧ Correct F r

/-- The tree without the summaries. -/
def bare : Tree (ι × σ) → Tree ι
  | .nil => .nil
  | .node c l x r => .node c (bare l) x.1 (bare r)

/-- The identities in order. -/
def ids (t : Tree (ι × σ)) : List ι := t.inorder.map (·.1)

/-- What a client of the augmented tree does: it inserts a node (with any, even a senseless, summary)
at any leaf position and calls `rb_insert_color` and `rb_augment_insert`; or it brackets
`rb_erase` with `rb_augment_erase_begin` / `rb_augment_erase_end`. -/
inductive Hist [DecidableEq ι] (F : ι → Option σ → Option σ → σ) : Tree (ι × σ) → Prop
  | empty : Hist F .nil
  | ins (p : Path (ι × σ)) (i : ι) (s : σ) (t : Tree (ι × σ)) (z : Loc (ι × σ)) :
      Hist F (zip p .nil) → i ∉ ids (zip p .nil) →
      insertColor (.node .red .nil (i, s) .nil) p = some t →
      z.root = t → z.x.1 = i → Hist F (augInsert F z)
  | del (z : Loc (ι × σ)) (t : Tree (ι × σ)) (d : ι) (y : Loc (ι × σ)) :
      Hist F z.root → eraseBegin z = some (some d) → erase z.path z.tree = some t →
      y.root = t → y.x.1 = d → Hist F (augErase F y)
  | delNull (z : Loc (ι × σ)) (t : Tree (ι × σ)) :
      Hist F z.root → eraseBegin z = some none → erase z.path z.tree = some t → Hist F t

/-! ## Lemmas -/

section
variable {F : ι → Option σ → Option σ → σ}

/-- both subtrees are correct; the node itself may be stale -/
def CC (F : ι → Option σ → Option σ → σ) : Tree (ι × σ) → Prop
  | .nil => True
  | .node _ l _ r => Correct F l ∧ Correct F r

theorem Correct.cc {t : Tree (ι × σ)} (h : Correct F t) : CC F t := by
  cases t with
  | nil => trivial
  | node => exact h.2

theorem func_correct {t : Tree (ι × σ)} (h : CC F t) : Correct F (func F t) := by
  cases t with
  | nil => trivial
  | node => exact ⟨rfl, h⟩

theorem CC_func {t : Tree (ι × σ)} (h : CC F t) : CC F (func F t) := (func_correct h).cc

/-- siblings along the path: only they themselves may be stale -/
def Near (F : ι → Option σ → Option σ → σ) : Path (ι × σ) → Prop
  | [] => True
  | f :: p => CC F f.sib ∧ Near F p

theorem augPath_correct (p : Path (ι × σ)) (t : Tree (ι × σ)) (ht : CC F t) (hp : Near F p) :
    Correct F (augPath F t p) := by
  fun_induction augPath F t p with
  | case1 t => exact func_correct ht
  | case2 t c x p ih => exact ih ⟨func_correct (CC_func ht), trivial⟩ hp.2
  | case3 t c x rc rl rx rr p ih => exact ih ⟨func_correct ht, func_correct hp.1⟩ hp.2
  | case4 t c l x p ih => exact ih ⟨func_correct hp.1, func_correct ht⟩ hp.2

theorem bare_func (t : Tree (ι × σ)) : bare (func F t) = bare t := by
  cases t <;> simp [func, bare]

theorem bare_zip (p : Path (ι × σ)) {t t' : Tree (ι × σ)} (h : bare t = bare t') :
    bare (zip p t) = bare (zip p t') := by
  induction p generalizing t t' with
  | nil => exact h
  | cons f p ih => apply ih; cases f <;> simp [Frame.plug, bare, h]

theorem bare_augPath (p : Path (ι × σ)) (t : Tree (ι × σ)) :
    bare (augPath F t p) = bare (zip p t) := by
  fun_induction augPath F t p with
  | case1 t => simp [bare_func, zip]
  | case2 t c x p ih => rw [ih]; simp only [zip]; apply bare_zip; simp [Frame.plug, bare, bare_func]
  | case3 t c x rc rl rx rr p ih =>
    rw [ih]; simp only [zip]; apply bare_zip; simp [Frame.plug, bare, bare_func]
  | case4 t c l x p ih => rw [ih]; simp only [zip]; apply bare_zip; simp [Frame.plug, bare, bare_func]

theorem inorder_bare (t : Tree (ι × σ)) : (bare t).inorder = ids t := by
  induction t with
  | nil => rfl
  | node c l x r ihl ihr => simp [bare, Tree.inorder, ihl, ihr, ids]

theorem isRed_bare (t : Tree (ι × σ)) : (bare t).isRed = t.isRed := by
  cases t with
  | nil => rfl
  | node c l x r => cases c <;> rfl

theorem BH_bare (t : Tree (ι × σ)) (n : Nat) : (bare t).BH n ↔ t.BH n := by
  induction t generalizing n with
  | nil => rfl
  | node c l x r ihl ihr => cases c <;> simp [bare, Tree.BH, ihl, ihr]

theorem NoRR_bare (t : Tree (ι × σ)) : (bare t).NoRR ↔ t.NoRR := by
  induction t with
  | nil => rfl
  | node c l x r ihl ihr => simp [bare, Tree.NoRR, ihl, ihr, isRed_bare]

theorem valid_bare (t : Tree (ι × σ)) : Valid (bare t) ↔ Valid t := by
  simp [Valid, isRed_bare, NoRR_bare, BH_bare]

/-! ### where the stale nodes are -/

/-- the node `d` is in the tree and everything stale is `d`, an ancestor, or a sibling of one of them -/
def D (F : ι → Option σ → Option σ → σ) (d : ι) : Tree (ι × σ) → Prop
  | .nil => False
  | .node _ l x r => (x.1 = d ∧ Correct F l ∧ Correct F r) ∨ (D F d l ∧ CC F r) ∨ (CC F l ∧ D F d r)

/-- the same, also allowing the two children of `d` to be stale -/
def D1 (F : ι → Option σ → Option σ → σ) (d : ι) : Tree (ι × σ) → Prop
  | .nil => False
  | .node _ l x r => (x.1 = d ∧ CC F l ∧ CC F r) ∨ (D1 F d l ∧ CC F r) ∨ (CC F l ∧ D1 F d r)

/-- `d` is a leaf and everything stale is `d` or an ancestor -/
def D0 (F : ι → Option σ → Option σ → σ) (d : ι) : Tree (ι × σ) → Prop
  | .nil => False
  | .node _ l x r => (x.1 = d ∧ l = .nil ∧ r = .nil) ∨ (D0 F d l ∧ Correct F r) ∨ (Correct F l ∧ D0 F d r)

/-- all siblings on the path are correct -/
def SC (F : ι → Option σ → Option σ → σ) : Path (ι × σ) → Prop
  | [] => True
  | f :: p => Correct F f.sib ∧ SC F p

theorem D0.d1 {d : ι} {t : Tree (ι × σ)} (h : D0 F d t) : D1 F d t := by
  induction t with
  | nil => exact h
  | node c l x r ihl ihr =>
    rcases h with ⟨h1, rfl, rfl⟩ | ⟨h1, h2⟩ | ⟨h1, h2⟩
    · exact .inl ⟨h1, trivial, trivial⟩
    · exact .inr (.inl ⟨ihl h1, h2.cc⟩)
    · exact .inr (.inr ⟨h1.cc, ihr h2⟩)

theorem D1_setBlack {d : ι} {t : Tree (ι × σ)} (h : D1 F d t) : D1 F d t.setBlack := by
  cases t <;> exact h

theorem D_setBlack {d : ι} {t : Tree (ι × σ)} (h : D F d t) : D F d t.setBlack := by
  cases t <;> exact h

theorem Correct_setBlack {t : Tree (ι × σ)} (h : Correct F t) : Correct F t.setBlack := by
  cases t <;> exact h

theorem sum_setBlack (t : Tree (ι × σ)) : sum t.setBlack = sum t := by cases t <;> rfl

theorem D1_zip {d : ι} {p : Path (ι × σ)} {t : Tree (ι × σ)} (h : D1 F d t) (hp : SC F p) :
    D1 F d (zip p t) := by
  induction p generalizing t with
  | nil => exact h
  | cons f p ih =>
    apply ih _ hp.2
    cases f with
    | left => exact .inr (.inl ⟨h, hp.1.cc⟩)
    | right => exact .inr (.inr ⟨hp.1.cc, h⟩)

theorem D_zip {d : ι} {p : Path (ι × σ)} {t : Tree (ι × σ)} (h : D F d t) (hp : SC F p) :
    D F d (zip p t) := by
  induction p generalizing t with
  | nil => exact h
  | cons f p ih =>
    apply ih _ hp.2
    cases f with
    | left => exact .inr (.inl ⟨h, hp.1.cc⟩)
    | right => exact .inr (.inr ⟨hp.1.cc, h⟩)

theorem SC_of_correct {p : Path (ι × σ)} {t : Tree (ι × σ)} (h : Correct F (zip p t)) :
    Correct F t ∧ SC F p := by
  induction p generalizing t with
  | nil => exact ⟨h, trivial⟩
  | cons f p ih =>
    have := ih h
    cases f with
    | left => exact ⟨this.1.2.1, this.1.2.2, this.2⟩
    | right => exact ⟨this.1.2.2, this.1.2.1, this.2⟩

/-- repairing after an insertion keeps the stale nodes near the new one -/
theorem insertColor_D1 {d : ι} (n : Tree (ι × σ)) (p : Path (ι × σ)) (t : Tree (ι × σ))
    (hn : D0 F d n) (hp : SC F p) (h : insertColor n p = some t) : D1 F d t := by
  fun_induction insertColor n p with
  | case1 n => injection h with h; subst h; exact D1_setBlack hn.d1
  | case2 n x r p =>
    injection h with h; subst h
    exact D1_setBlack (D1_zip (.inr (.inl ⟨hn.d1, hp.1.cc⟩)) hp.2)
  | case3 n l x p =>
    injection h with h; subst h
    exact D1_setBlack (D1_zip (.inr (.inr ⟨hp.1.cc, hn.d1⟩)) hp.2)
  | case4 => cases h
  | case5 => cases h
  | case6 n px pr c gx u p hu ih =>
    exact ih (.inr (.inl ⟨.inr (.inl ⟨hn, hp.1⟩), Correct_setBlack hp.2.1⟩)) hp.2.2 h
  | case7 n px pr c gx u p hu =>
    injection h with h; subst h
    exact D1_setBlack (D1_zip (.inr (.inl ⟨hn.d1, hp.1, hp.2.1⟩)) hp.2.2)
  | case8 n pl px c gx u p hu ih =>
    exact ih (.inr (.inl ⟨.inr (.inr ⟨hp.1, hn⟩), Correct_setBlack hp.2.1⟩)) hp.2.2 h
  | case9 => cases h
  | case10 pl px c gx u p hu nc nl nx nr =>
    injection h with h; subst h
    refine D1_setBlack (D1_zip ?_ hp.2.2)
    rcases hn with ⟨h1, rfl, rfl⟩ | ⟨h1, h2⟩ | ⟨h1, h2⟩
    · exact .inl ⟨h1, ⟨hp.1, trivial⟩, ⟨trivial, hp.2.1⟩⟩
    · exact .inr (.inl ⟨.inr (.inr ⟨hp.1.cc, h1.d1⟩), ⟨h2, hp.2.1⟩⟩)
    · exact .inr (.inr ⟨⟨hp.1, h1⟩, .inr (.inl ⟨h2.d1, hp.2.1.cc⟩)⟩)
  | case11 n pl px c u gx p hu ih =>
    exact ih (.inr (.inr ⟨Correct_setBlack hp.2.1, .inr (.inr ⟨hp.1, hn⟩)⟩)) hp.2.2 h
  | case12 n pl px c u gx p hu =>
    injection h with h; subst h
    exact D1_setBlack (D1_zip (.inr (.inr ⟨⟨hp.2.1, hp.1⟩, hn.d1⟩)) hp.2.2)
  | case13 n px pr c u gx p hu ih =>
    exact ih (.inr (.inr ⟨Correct_setBlack hp.2.1, .inr (.inl ⟨hn, hp.1⟩)⟩)) hp.2.2 h
  | case14 => cases h
  | case15 px pr c u gx p hu nc nl nx nr =>
    injection h with h; subst h
    refine D1_setBlack (D1_zip ?_ hp.2.2)
    rcases hn with ⟨h1, rfl, rfl⟩ | ⟨h1, h2⟩ | ⟨h1, h2⟩
    · exact .inl ⟨h1, ⟨hp.2.1, trivial⟩, ⟨trivial, hp.1⟩⟩
    · exact .inr (.inl ⟨.inr (.inr ⟨hp.2.1.cc, h1.d1⟩), ⟨h2, hp.1⟩⟩)
    · exact .inr (.inr ⟨⟨hp.2.1, h1⟩, .inr (.inl ⟨h2.d1, hp.1.cc⟩)⟩)

/-- the payload of a frame -/
def fx : Frame (ι × σ) → ι
  | .left _ x _ => x.1
  | .right _ _ x => x.1

/-- `d` is a stale-path node below, or the parent of a correct subtree -/
def E (F : ι → Option σ → Option σ → σ) (d : ι) (n : Tree (ι × σ)) (px : ι) : Prop :=
  D F d n ∨ (Correct F n ∧ px = d)

theorem E.left {d : ι} {n o : Tree (ι × σ)} {px : ι × σ} {c : Color} (h : E F d n px.1)
    (ho : Correct F o) : D F d (.node c n px o) := by
  rcases h with h | ⟨h, e⟩
  · exact .inr (.inl ⟨h, ho.cc⟩)
  · exact .inl ⟨e, h, ho⟩

theorem E.right {d : ι} {n o : Tree (ι × σ)} {px : ι × σ} {c : Color} (h : E F d n px.1)
    (ho : Correct F o) : D F d (.node c o px n) := by
  rcases h with h | ⟨h, e⟩
  · exact .inr (.inr ⟨ho.cc, h⟩)
  · exact .inl ⟨e, ho, h⟩

theorem E_setBlack {d : ι} {n : Tree (ι × σ)} {px : ι} (h : E F d n px) : E F d n.setBlack px := by
  rcases h with h | ⟨h, e⟩
  · exact .inl (D_setBlack h)
  · exact .inr ⟨Correct_setBlack h, e⟩

theorem eraseLeft_D {d : ι} {n o : Tree (ι × σ)} {pc : Color} {px : ι × σ} {t : Tree (ι × σ)}
    (h : E F d n px.1) (ho : Correct F o)
    (he : eraseLeft n pc px o = some (.up t) ∨ eraseLeft n pc px o = some (.done t)) : D F d t := by
  cases o with
  | nil => simp [eraseLeft] at he
  | node oc ol ox or =>
    unfold eraseLeft at he
    dsimp only at he
    split at he
    · simp at he; subst he
      rcases h with h | ⟨h, e⟩
      · exact .inr (.inl ⟨h, ho.2⟩)
      · exact .inl ⟨e, h, ho⟩
    · split at he
      · cases ol with
        | nil => simp at he
        | node lc oll olx olr =>
          simp at he; subst he
          exact .inr (.inl ⟨h.left ho.2.1.2.1, ho.2.1.2.2, ho.2.2⟩)
      · simp at he; subst he
        exact .inr (.inl ⟨h.left ho.2.1, (Correct_setBlack ho.2.2).cc⟩)

theorem eraseRight_D {d : ι} {n o : Tree (ι × σ)} {pc : Color} {px : ι × σ} {t : Tree (ι × σ)}
    (h : E F d n px.1) (ho : Correct F o)
    (he : eraseRight n pc px o = some (.up t) ∨ eraseRight n pc px o = some (.done t)) : D F d t := by
  cases o with
  | nil => simp [eraseRight] at he
  | node oc ol ox or =>
    unfold eraseRight at he
    dsimp only at he
    split at he
    · simp at he; subst he
      rcases h with h | ⟨h, e⟩
      · exact .inr (.inr ⟨ho.2, h⟩)
      · exact .inl ⟨e, ho, h⟩
    · split at he
      · cases or with
        | nil => simp at he
        | node lc oll olx olr =>
          simp at he; subst he
          exact .inr (.inr ⟨⟨ho.2.1, ho.2.2.2.1⟩, h.right ho.2.2.2.2⟩)
      · simp at he; subst he
        exact .inr (.inr ⟨(Correct_setBlack ho.2.1).cc, h.right ho.2.2⟩)

/-- `d` is on the stale path of the pair (subtree, path) -/
def EP (F : ι → Option σ → Option σ → σ) (d : ι) (n : Tree (ι × σ)) : Path (ι × σ) → Prop
  | [] => D F d n
  | f :: _ => E F d n (fx f)

theorem EP_of_D {d : ι} {n : Tree (ι × σ)} (h : D F d n) (p : Path (ι × σ)) : EP F d n p := by
  cases p with
  | nil => exact h
  | cons => exact .inl h

theorem EP_zip {d : ι} {n : Tree (ι × σ)} {p : Path (ι × σ)} (h : EP F d n p) (hp : SC F p) :
    D F d (zip p n) := by
  cases p with
  | nil => exact h
  | cons f p =>
    show D F d (zip p (f.plug n))
    refine D_zip ?_ hp.2
    cases f with
    | left => exact E.left h hp.1
    | right => exact E.right h hp.1

theorem eraseColor_D {d : ι} (n : Tree (ι × σ)) (p : Path (ι × σ)) (t : Tree (ι × σ))
    (hn : EP F d n p) (hp : SC F p) (h : eraseColor n p = some t) : D F d t := by
  induction p generalizing n with
  | nil => simp [eraseColor] at h; subst h; exact D_setBlack hn
  | cons f p ih =>
    cases f with
    | left pc px o =>
      unfold eraseColor at h
      split at h
      · injection h with h; subst h
        exact EP_zip (p := .left pc px o :: p) (E_setBlack hn) hp
      · split at h
        · cases h
        · next ol ox or =>
          have ho := hp.1
          split at h
          · cases h
          · next t1 e =>
            injection h with h; subst h
            exact D_zip (p := .left .black ox or :: p)
              (D_setBlack (eraseLeft_D hn ho.2.1 (.inl e))) ⟨ho.2.2, hp.2⟩
          · next t1 e =>
            injection h with h; subst h
            exact D_setBlack (D_zip (p := .left .black ox or :: p)
              (eraseLeft_D hn ho.2.1 (.inr e)) ⟨ho.2.2, hp.2⟩)
        · next ol ox or =>
          split at h
          · cases h
          · next t1 e => exact ih _ (EP_of_D (eraseLeft_D hn hp.1 (.inl e)) _) hp.2 h
          · next t1 e =>
            injection h with h; subst h
            exact D_setBlack (D_zip (eraseLeft_D hn hp.1 (.inr e)) hp.2)
    | right pc o px =>
      unfold eraseColor at h
      split at h
      · injection h with h; subst h
        exact EP_zip (p := .right pc o px :: p) (E_setBlack hn) hp
      · split at h
        · cases h
        · next ol ox or =>
          have ho := hp.1
          split at h
          · cases h
          · next t1 e =>
            injection h with h; subst h
            exact D_zip (p := .right .black ol ox :: p)
              (D_setBlack (eraseRight_D hn ho.2.2 (.inl e))) ⟨ho.2.1, hp.2⟩
          · next t1 e =>
            injection h with h; subst h
            exact D_setBlack (D_zip (p := .right .black ol ox :: p)
              (eraseRight_D hn ho.2.2 (.inr e)) ⟨ho.2.1, hp.2⟩)
        · next ol ox or =>
          split at h
          · cases h
          · next t1 e => exact ih _ (EP_of_D (eraseRight_D hn hp.1 (.inl e)) _) hp.2 h
          · next t1 e =>
            injection h with h; subst h
            exact D_setBlack (D_zip (eraseRight_D hn hp.1 (.inr e)) hp.2)

theorem eraseFinish_D {d : ι} {c : Color} {n : Tree (ι × σ)} {p : Path (ι × σ)} {t : Tree (ι × σ)}
    (hn : EP F d n p) (hp : SC F p) (h : eraseFinish c n p = some t) : D F d t := by
  cases c with
  | red => simp [eraseFinish] at h; subst h; exact EP_zip hn hp
  | black => exact eraseColor_D n p t hn hp h

/-- the walk to the successor by `rb_next` and by `rb_erase` -/
theorem descend_leftmost (t : Tree (ι × σ)) (q p : Path (ι × σ)) (h : t ≠ .nil) :
    ∃ c x r q', descendLeft t q = some (c, x, r, q') ∧
      leftmost t (q ++ p) = some ⟨q' ++ p, c, .nil, x, r⟩ := by
  fun_induction descendLeft t q with
  | case1 => exact absurd rfl h
  | case2 c x r q => exact ⟨c, x, r, q, rfl, rfl⟩
  | case3 c lc ll lx lr x r q ih =>
    obtain ⟨c', x', r', q', h1, h2⟩ := ih (by simp)
    exact ⟨c', x', r', q', h1, by simpa [leftmost] using h2⟩

theorem EP_root {d : ι} {t : Tree (ι × σ)} (ht : Correct F t) (h : rootId t = some d)
    (p : Path (ι × σ)) : EP F d t p := by
  cases t with
  | nil => cases h
  | node c l x r =>
    simp [rootId] at h
    have hd : D F d (.node c l x r) := .inl ⟨h, ht.2⟩
    exact EP_of_D hd _

theorem EP_parent {d : ι} {p : Path (ι × σ)} (h : parentId p = some d) :
    EP F d .nil p := by
  cases p with
  | nil => cases h
  | cons f p => cases f <;> (simp [parentId] at h; exact .inr ⟨trivial, h⟩)

theorem SC_append {p q : Path (ι × σ)} : SC F (p ++ q) ↔ SC F p ∧ SC F q := by
  induction p with
  | nil => simp [SC]
  | cons f p ih => simp [SC, ih, and_assoc]

theorem parentId_append (q : Path (ι × σ)) (f : Frame (ι × σ)) (p : Path (ι × σ)) :
    parentId (q ++ f :: p) = some (match q with | [] => fx f | g :: _ => fx g) := by
  cases q with
  | nil => cases f <;> rfl
  | cons g q => cases g <;> rfl

theorem fx_mem_ids (f : Frame (ι × σ)) (q : Path (ι × σ)) (t : Tree (ι × σ)) :
    fx f ∈ ids (zip (f :: q) t) := by
  unfold ids
  rw [zip, inorder_zip]
  cases f <;> simp [Frame.plug, Tree.inorder, fx]

/-- after `rb_erase` everything stale is near the node `rb_augment_erase_begin` returned -/
theorem erase_D [DecidableEq ι] {z : Loc (ι × σ)} {t : Tree (ι × σ)} {d : ι} (hc : Correct F z.root)
    (hn : (ids z.root).Nodup)
    (hb : eraseBegin z = some (some d)) (h : erase z.path z.tree = some t) : D F d t := by
  obtain ⟨⟨-, hl, hr⟩, hp⟩ := SC_of_correct hc
  obtain ⟨p, c, l, x, r⟩ := z
  dsimp only [Loc.tree] at *
  cases l with
  | nil =>
    cases r with
    | nil =>
      simp [eraseBegin] at hb
      exact eraseFinish_D (EP_parent hb) hp h
    | node rc rl rx rr =>
      simp [eraseBegin] at hb
      exact eraseFinish_D (EP_root hr (by simp [rootId, hb]) _) hp h
  | node lc ll lx lr =>
    cases r with
    | nil =>
      simp [eraseBegin] at hb
      exact eraseFinish_D (EP_root hl (by simp [rootId, hb]) _) hp h
    | node rc rl rx rr =>
      obtain ⟨sc, sx, child, q, e1, e2⟩ := descend_leftmost (.node rc rl rx rr) []
        (.right c (.node lc ll lx lr) x :: p) (by simp)
      obtain ⟨_, _, _, _, d1, d2, -⟩ := descendLeft_ok (.node rc rl rx rr) [] (by simp)
      rw [e1] at d1
      cases d1
      simp only [zip] at d2
      simp only [erase, e1] at h
      simp only [List.nil_append] at e2
      simp only [eraseBegin, next, e2, parentId_append] at hb
      have hcr := hr
      rw [← d2] at hcr
      obtain ⟨⟨-, -, hch⟩, hq⟩ := SC_of_correct hcr
      have hs : SC F (q ++ .right c (.node lc ll lx lr) sx :: p) :=
        SC_append.2 ⟨hq, hl, hp⟩
      refine eraseFinish_D ?_ hs h
      cases child with
      | node cc cl cx cr =>
        simp [rootId] at hb
        exact EP_root hch (by simp [rootId, hb]) _
      | nil =>
        simp only [rootId] at hb
        apply EP_parent
        rw [parentId_append]
        cases q with
        | nil => simp [fx] at hb ⊢; exact hb
        | cons f q =>
          have hne : fx f ≠ x.1 := by
            intro he
            have hm := fx_mem_ids f q (.node sc .nil sx .nil)
            rw [d2] at hm
            unfold ids at hm hn
            rw [Loc.inorder_root, List.map_append, List.map_cons, List.nodup_append] at hn
            have := (List.nodup_cons.1 hn.2.1).1
            apply this
            rw [← he]
            simp [Loc.post]
            obtain ⟨y, hy, hye⟩ := List.mem_map.1 hm
            exact .inl ⟨y.2, by rw [← hye]; exact hy⟩
          simp [hne] at hb
          simpa using hb

/-! ### a node is where its identity is -/

theorem mem_ids_zip {p : Path (ι × σ)} {t : Tree (ι × σ)} {i : ι} (h : i ∈ ids t) : i ∈ ids (zip p t) := by
  unfold ids at *
  rw [inorder_zip]
  simp only [List.map_append, List.mem_append]
  exact .inl (.inr h)

theorem Loc.mem_ids (z : Loc (ι × σ)) : z.x.1 ∈ ids z.root :=
  mem_ids_zip (by simp [ids, Loc.tree, Tree.inorder])

theorem D_mem {d : ι} {t : Tree (ι × σ)} (h : D F d t) : d ∈ ids t := by
  induction t with
  | nil => exact h.elim
  | node c l x r ihl ihr =>
    simp only [ids, Tree.inorder, List.map_append, List.map_cons, List.mem_append, List.mem_cons]
    rcases h with ⟨h, -⟩ | ⟨h, -⟩ | ⟨-, h⟩
    · exact .inr (.inl h.symm)
    · exact .inl (ihl h)
    · exact .inr (.inr (ihr h))

theorem D1_mem {d : ι} {t : Tree (ι × σ)} (h : D1 F d t) : d ∈ ids t := by
  induction t with
  | nil => exact h.elim
  | node c l x r ihl ihr =>
    simp only [ids, Tree.inorder, List.map_append, List.map_cons, List.mem_append, List.mem_cons]
    rcases h with ⟨h, -⟩ | ⟨h, -⟩ | ⟨-, h⟩
    · exact .inr (.inl h.symm)
    · exact .inl (ihl h)
    · exact .inr (.inr (ihr h))

theorem exists_loc {i : ι} {t : Tree (ι × σ)} (h : i ∈ ids t) :
    ∃ z : Loc (ι × σ), z.root = t ∧ z.x.1 = i := by
  suffices ∀ p, ∃ z : Loc (ι × σ), z.root = zip p t ∧ z.x.1 = i from this []
  induction t with
  | nil => simp [ids, Tree.inorder] at h
  | node c l x r ihl ihr =>
    intro p
    simp only [ids, Tree.inorder, List.map_append, List.map_cons, List.mem_append, List.mem_cons] at h
    rcases h with h | h | h
    · exact ihl h (.left c x r :: p)
    · exact ⟨⟨p, c, l, x, r⟩, rfl, h.symm⟩
    · exact ihr h (.right c l x :: p)

theorem nodup_node {c : Color} {l r : Tree (ι × σ)} {x : ι × σ} (h : (ids (.node c l x r)).Nodup) :
    (ids l).Nodup ∧ (ids r).Nodup ∧ x.1 ∉ ids l ∧ x.1 ∉ ids r ∧ ∀ i ∈ ids l, i ∉ ids r := by
  simp only [ids, Tree.inorder, List.map_append, List.map_cons] at h ⊢
  rw [List.nodup_append, List.nodup_cons] at h
  obtain ⟨h1, ⟨h2, h3⟩, h4⟩ := h
  refine ⟨h1, h3, ?_, h2, ?_⟩
  · intro hm; exact h4 _ hm _ (by simp) rfl
  · intro i hi hm; exact h4 _ hi _ (by simp [-List.mem_map, hm]) rfl

theorem root_concat (q : Path (ι × σ)) (f : Frame (ι × σ)) (t : Tree (ι × σ)) :
    zip (q ++ [f]) t = f.plug (zip q t) := by rw [zip_append]; rfl

theorem Near_append {p q : Path (ι × σ)} : Near F (p ++ q) ↔ Near F p ∧ Near F q := by
  induction p with
  | nil => simp [Near]
  | cons f p ih => simp [Near, ih, and_assoc]

/-- wherever `d` is, its subtree and path have the shape the update needs -/
theorem D_loc {d : ι} {t : Tree (ι × σ)} (h : D F d t) (hn : (ids t).Nodup) {y : Loc (ι × σ)}
    (hy : y.root = t) (hd : y.x.1 = d) : CC F y.tree ∧ Near F y.path := by
  obtain ⟨p, c, l, x, r⟩ := y
  simp only [Loc.root, Loc.tree] at *
  induction t generalizing p with
  | nil => exact h.elim
  | node c' l' x' r' ihl ihr =>
    obtain ⟨n1, n2, n3, n4, n5⟩ := nodup_node hn
    rcases List.eq_nil_or_concat p with rfl | ⟨q, f, rfl⟩
    · simp only [zip, Tree.node.injEq] at hy
      obtain ⟨rfl, rfl, rfl, rfl⟩ := hy
      rcases h with ⟨-, h⟩ | ⟨h, -⟩ | ⟨-, h⟩
      · exact ⟨h, trivial⟩
      · exact absurd (D_mem h) (by rw [← hd]; exact n3)
      · exact absurd (D_mem h) (by rw [← hd]; exact n4)
    · rw [List.concat_eq_append, root_concat] at hy
      cases f with
      | left fc fx fr =>
        simp only [Frame.plug, Tree.node.injEq] at hy
        obtain ⟨rfl, hy, rfl, rfl⟩ := hy
        have hm : d ∈ ids l' := by
          rw [← hy, ← hd]; exact mem_ids_zip (by simp [ids, Tree.inorder])
        rcases h with ⟨h, -⟩ | ⟨h, h'⟩ | ⟨-, h⟩
        · exact absurd hm (by rw [← h]; exact n3)
        · obtain ⟨g1, g2⟩ := ihl h n1 q hy
          rw [List.concat_eq_append]
          exact ⟨g1, Near_append.2 ⟨g2, h', trivial⟩⟩
        · exact absurd (D_mem h) (n5 _ hm)
      | right fc fl fx =>
        simp only [Frame.plug, Tree.node.injEq] at hy
        obtain ⟨rfl, rfl, rfl, hy⟩ := hy
        have hm : d ∈ ids r' := by
          rw [← hy, ← hd]; exact mem_ids_zip (by simp [ids, Tree.inorder])
        rcases h with ⟨h, -⟩ | ⟨h, h'⟩ | ⟨h', h⟩
        · exact absurd hm (by rw [← h]; exact n4)
        · exact absurd hm (n5 _ (D_mem h))
        · obtain ⟨g1, g2⟩ := ihr h n2 q hy
          rw [List.concat_eq_append]
          exact ⟨g1, Near_append.2 ⟨g2, h', trivial⟩⟩

theorem D1_loc {d : ι} {t : Tree (ι × σ)} (h : D1 F d t) (hn : (ids t).Nodup) {y : Loc (ι × σ)}
    (hy : y.root = t) (hd : y.x.1 = d) : CC F y.l ∧ CC F y.r ∧ Near F y.path := by
  obtain ⟨p, c, l, x, r⟩ := y
  simp only [Loc.root, Loc.tree] at *
  induction t generalizing p with
  | nil => exact h.elim
  | node c' l' x' r' ihl ihr =>
    obtain ⟨n1, n2, n3, n4, n5⟩ := nodup_node hn
    rcases List.eq_nil_or_concat p with rfl | ⟨q, f, rfl⟩
    · simp only [zip, Tree.node.injEq] at hy
      obtain ⟨rfl, rfl, rfl, rfl⟩ := hy
      rcases h with ⟨-, h, h'⟩ | ⟨h, -⟩ | ⟨-, h⟩
      · exact ⟨h, h', trivial⟩
      · exact absurd (D1_mem h) (by rw [← hd]; exact n3)
      · exact absurd (D1_mem h) (by rw [← hd]; exact n4)
    · rw [List.concat_eq_append, root_concat] at hy
      cases f with
      | left fc fx fr =>
        simp only [Frame.plug, Tree.node.injEq] at hy
        obtain ⟨rfl, hy, rfl, rfl⟩ := hy
        have hm : d ∈ ids l' := by
          rw [← hy, ← hd]; exact mem_ids_zip (by simp [ids, Tree.inorder])
        rcases h with ⟨h, -⟩ | ⟨h, h'⟩ | ⟨-, h⟩
        · exact absurd hm (by rw [← h]; exact n3)
        · obtain ⟨g1, g2, g3⟩ := ihl h n1 q hy
          rw [List.concat_eq_append]
          exact ⟨g1, g2, Near_append.2 ⟨g3, h', trivial⟩⟩
        · exact absurd (D1_mem h) (n5 _ hm)
      | right fc fl fx =>
        simp only [Frame.plug, Tree.node.injEq] at hy
        obtain ⟨rfl, rfl, rfl, hy⟩ := hy
        have hm : d ∈ ids r' := by
          rw [← hy, ← hd]; exact mem_ids_zip (by simp [ids, Tree.inorder])
        rcases h with ⟨h, -⟩ | ⟨h, h'⟩ | ⟨h', h⟩
        · exact absurd hm (by rw [← h]; exact n4)
        · exact absurd hm (n5 _ (D1_mem h))
        · obtain ⟨g1, g2, g3⟩ := ihr h n2 q hy
          rw [List.concat_eq_append]
          exact ⟨g1, g2, Near_append.2 ⟨g3, h', trivial⟩⟩

theorem augInsert_correct {z : Loc (ι × σ)} (h : CC F z.l ∧ CC F z.r ∧ Near F z.path) :
    Correct F (augInsert F z) := by
  obtain ⟨p, c, l, x, r⟩ := z
  obtain ⟨h1, h2, h3⟩ := h
  unfold augInsert
  split
  · next e => simp only at e h1; rw [e] at h1; exact augPath_correct _ _ h1 ⟨h2, h3⟩
  · next e e' => simp only at e e' h2; rw [e'] at h2; exact augPath_correct _ _ h2 ⟨h1, h3⟩
  · next e e' =>
    simp only at e e'; subst e e'
    exact augPath_correct _ _ ⟨trivial, trivial⟩ h3

theorem bare_augInsert (z : Loc (ι × σ)) : bare (augInsert F z) = bare z.root := by
  obtain ⟨p, c, l, x, r⟩ := z
  unfold augInsert
  split
  · next e => simp only at e; subst e; rw [bare_augPath]; rfl
  · next e e' => simp only at e e'; subst e e'; rw [bare_augPath]; rfl
  · next e e' => simp only at e e'; subst e e'; rw [bare_augPath]; rfl
end

/-! ## C65 -/

variable [DecidableEq ι] (F : ι → Option σ → Option σ → σ)

/-- **C65.** Inserting a node anywhere into a correctly summarised red-black tree: `rb_insert_color`
succeeds, the new node can be found, and after `rb_augment_insert` on it every summary of the tree is
right again, whatever summary the new node came with; the shape, the colours and the identities are
exactly those `rb_insert_color` left, and the identities are the old ones plus the new one. -/
theorem augment_insert (p : Path (ι × σ)) (i : ι) (s : σ) (hv : Valid (zip p (.nil : Tree (ι × σ))))
    (hc : Correct F (zip p .nil)) (hn : (ids (zip p (.nil : Tree (ι × σ)))).Nodup)
    (hi : i ∉ ids (zip p (.nil : Tree (ι × σ)))) :
    ∃ t, insertColor (.node .red .nil (i, s) .nil) p = some t ∧
      (∃ z : Loc (ι × σ), z.root = t ∧ z.x.1 = i) ∧
      ∀ z : Loc (ι × σ), z.root = t → z.x.1 = i →
        Correct F (augInsert F z) ∧ bare (augInsert F z) = bare t ∧ Valid (augInsert F z) ∧
        ∃ l1 l2, ids (zip p .nil) = l1 ++ l2 ∧ ids (augInsert F z) = l1 ++ i :: l2 := by
  obtain ⟨n, h1, h2, h3, -⟩ := zip_inv hv
  obtain ⟨t, e1, e2, e3⟩ := insertColor_ok (.node .red .nil (i, s) .nil) p n h1
    ⟨h2, h2⟩ (by simp [Tree.NoRR]) rfl
  have h0 : D0 F i (.node .red .nil (i, s) .nil) := .inl ⟨rfl, rfl, rfl⟩
  have hd : D1 F i t := insertColor_D1 _ p t h0 (SC_of_correct hc).2 e1
  have hold : ids (zip p (.nil : Tree (ι × σ))) = (before p).map (·.1) ++ (after p).map (·.1) := by
    simp [ids, inorder_zip, Tree.inorder]
  have hnew : ids t = (before p).map (·.1) ++ i :: (after p).map (·.1) := by
    simp [ids, e3, inorder_zip, Tree.inorder]
  have hnd : (ids t).Nodup := by
    rw [hnew]; rw [hold] at hn hi
    have hp : ((before p).map (·.1) ++ i :: (after p).map (·.1)).Perm
        (i :: ((before p).map (·.1) ++ (after p).map (·.1))) := List.perm_middle
    exact hp.nodup_iff.2 (List.nodup_cons.2 ⟨hi, hn⟩)
  refine ⟨t, e1, exists_loc (D1_mem hd), ?_⟩
  intro z hz hzi
  have hb : bare (augInsert F z) = bare t := by rw [bare_augInsert, hz]
  refine ⟨augInsert_correct (D1_loc hd hnd hz hzi), hb, ?_, _, _, hold, ?_⟩
  · rw [← valid_bare, hb, valid_bare]; exact e2
  · rw [← inorder_bare, hb, inorder_bare, hnew]

/-- **C65.** Erasing any node of a correctly summarised red-black tree: `rb_augment_erase_begin` does
not touch a NULL pointer; when it returns a node, that node is still in the tree after `rb_erase`, is
not the erased one, and `rb_augment_erase_end` on it makes every summary right; when it returns NULL the
tree is empty afterwards.  Shape, colours and identities are exactly those `rb_erase` left. -/
theorem augment_erase (z : Loc (ι × σ)) (hv : Valid z.root) (hc : Correct F z.root)
    (hn : (ids z.root).Nodup) :
    ∃ o t, eraseBegin z = some o ∧ erase z.path z.tree = some t ∧
      (∃ l1 l2, ids z.root = l1 ++ z.x.1 :: l2 ∧ ids t = l1 ++ l2) ∧
      match o with
      | none => t = .nil
      | some d =>
        d ≠ z.x.1 ∧ (∃ y : Loc (ι × σ), y.root = t ∧ y.x.1 = d) ∧
        ∀ y : Loc (ι × σ), y.root = t → y.x.1 = d →
          Correct F (augErase F y) ∧ bare (augErase F y) = bare t ∧ Valid (augErase F y) := by
  obtain ⟨t, e1, e2, e3⟩ := erase_ok z.path z.c z.l z.x z.r hv
  have hids : ids z.root = z.pre.map (·.1) ++ z.x.1 :: z.post.map (·.1) := by
    simp [ids, Loc.inorder_root]
  have hidt : ids t = z.pre.map (·.1) ++ z.post.map (·.1) := by
    simp [ids, e3, Loc.pre, Loc.post]
  have hmid : (z.pre.map (·.1) ++ z.x.1 :: z.post.map (·.1)).Perm
      (z.x.1 :: (z.pre.map (·.1) ++ z.post.map (·.1))) := List.perm_middle
  have hnd := hn
  rw [hids, hmid.nodup_iff, List.nodup_cons, ← hidt] at hnd
  have hbeg : ∃ o, eraseBegin z = some o := by
    obtain ⟨p, c, l, x, r⟩ := z
    cases l with
    | nil => cases r <;> exact ⟨_, rfl⟩
    | node lc ll lx lr =>
      cases r with
      | nil => exact ⟨_, rfl⟩
      | node rc rl rx rr =>
        obtain ⟨sc, sx, child, q, -, e⟩ := descend_leftmost (.node rc rl rx rr) []
          (.right c (.node lc ll lx lr) x :: p) (by simp)
        simp only [List.nil_append] at e
        simp only [eraseBegin, next, e]
        cases rootId child with
        | some d => exact ⟨_, rfl⟩
        | none => dsimp only; split <;> exact ⟨_, rfl⟩
  obtain ⟨o, ho⟩ := hbeg
  refine ⟨o, t, ho, e1, ⟨_, _, hids, hidt⟩, ?_⟩
  cases o with
  | none =>
    obtain ⟨p, c, l, x, r⟩ := z
    cases l with
    | nil =>
      cases r with
      | nil =>
        simp only [eraseBegin, Option.some.injEq] at ho
        cases p with
        | nil => cases c <;> (simp [erase, eraseFinish, eraseColor, zip, Tree.setBlack] at e1; exact e1.symm)
        | cons f p => cases f <;> simp [parentId] at ho
      | node => simp [eraseBegin] at ho
    | node lc ll lx lr =>
      cases r with
      | nil => simp [eraseBegin] at ho
      | node rc rl rx rr =>
        obtain ⟨sc, sx, child, q, -, e⟩ := descend_leftmost (.node rc rl rx rr) []
          (.right c (.node lc ll lx lr) x :: p) (by simp)
        simp only [List.nil_append] at e
        simp only [eraseBegin, next, e, parentId_append] at ho
        cases hrc : rootId child with
        | some d => simp [hrc] at ho
        | none => simp only [hrc] at ho; clear hids hidt hmid hnd hv hc hn e1 e3; grind
  | some d =>
    have hd : D F d t := erase_D hc hn ho e1
    refine ⟨?_, exists_loc (D_mem hd), ?_⟩
    · rintro rfl; exact hnd.1 (D_mem hd)
    · intro y hy hyd
      have hb : bare (augErase F y) = bare t := by
        rw [augErase, bare_augPath]; exact congrArg bare hy
      obtain ⟨g1, g2⟩ := D_loc hd hnd.2 hy hyd
      refine ⟨augPath_correct _ _ g1 g2, hb, ?_⟩
      rw [← valid_bare, hb, valid_bare]; exact e2

/-- **C65.** Over every history of augmented insertions and erasures every summary is right, the tree is
a red-black tree and no identity occurs twice. -/
theorem augment_history (t : Tree (ι × σ)) (h : Hist F t) :
    Correct F t ∧ Valid t ∧ (ids t).Nodup := by
  induction h with
  | empty => exact ⟨trivial, ⟨rfl, trivial, 0, rfl⟩, by simp [ids, Tree.inorder]⟩
  | ins p i s t z _ hi ht hz hzi ih =>
    obtain ⟨c, v, n⟩ := ih
    obtain ⟨t', e1, -, h⟩ := augment_insert F p i s v c n hi
    rw [ht] at e1; cases e1
    obtain ⟨h1, -, h2, l1, l2, h3, h4⟩ := h z hz hzi
    refine ⟨h1, h2, ?_⟩
    rw [h4, List.perm_middle.nodup_iff, List.nodup_cons, ← h3]
    exact ⟨hi, n⟩
  | del z t d y _ hb ht hy hd ih =>
    obtain ⟨c, v, n⟩ := ih
    obtain ⟨o, t', e1, e2, ⟨l1, l2, e3, e4⟩, h⟩ := augment_erase F z v c n
    rw [ht] at e2; cases e2
    rw [hb] at e1; cases e1
    obtain ⟨h1, h2, h3⟩ := h.2.2 y hy hd
    refine ⟨h1, h3, ?_⟩
    rw [← inorder_bare, h2, inorder_bare, e4]
    rw [e3, List.perm_middle.nodup_iff, List.nodup_cons] at n
    exact n.2
  | delNull z t _ hb ht ih =>
    obtain ⟨c, v, n⟩ := ih
    obtain ⟨o, t', e1, e2, -, h⟩ := augment_erase F z v c n
    rw [ht] at e2; cases e2
    rw [hb] at e1; cases e1
    subst h
    exact ⟨trivial, ⟨rfl, trivial, 0, rfl⟩, by simp [ids, Tree.inorder]⟩

/-- **C65.** For a callback that combines with an associative operation, the root of a correctly
summarised tree holds the total over all items in order: what an augmented tree is for (sums, maxima,
counts of a whole subtree read off in one step). -/
theorem augment_total (op : σ → σ → σ) (e : σ) (v : ι → σ) (hop : ∀ a b c, op (op a b) c = op a (op b c))
    (hel : ∀ a, op e a = a) (her : ∀ a, op a e = a)
    (hF : ∀ i l r, F i l r = op (l.getD e) (op (v i) (r.getD e)))
    (t : Tree (ι × σ)) (h : Hist F t) (z : Loc (ι × σ)) (hz : z.root = t) :
    z.x.2 = ((z.tree.inorder.map (fun y => v y.1)).foldr op e) := by
  have key : ∀ t : Tree (ι × σ), Correct F t →
      (sum t).getD e = (t.inorder.map (fun y => v y.1)).foldr op e := by
    have hfold : ∀ (l : List σ) (b : σ), l.foldr op b = op (l.foldr op e) b := by
      intro l b
      induction l with
      | nil => simp [hel]
      | cons a l ih => simp [ih, hop]
    intro t ht
    induction t with
    | nil => rfl
    | node c l x r ihl ihr =>
      simp only [sum, Option.getD_some, Tree.inorder, List.map_append, List.map_cons,
        List.foldr_append, List.foldr_cons]
      rw [ht.1, hF, ihl ht.2.1, ihr ht.2.2, hfold _ (op _ _)]
  have hc := (augment_history F t h).1
  rw [← hz] at hc
  have := key z.tree (SC_of_correct hc).1
  simpa [sum, Loc.tree] using this

/-! ## Non-vacuity -/

/-- sizes of subtrees -/
def cnt : Nat → Option Nat → Option Nat → Nat := fun _ l r => l.getD 0 + 1 + r.getD 0

/-- three nodes inserted in ascending order force a rotation; the new node gets a stale summary 99 -/
example : insertColor (.node .red .nil (3, 99) .nil)
      [.right .red .nil (2, 1), .right .black .nil (1, 2)] =
    some (.node .black (.node .red .nil (1, 2) .nil) (2, 1) (.node .red .nil (3, 99) .nil)) := by decide

example : augInsert cnt ⟨[.right .black (.node .red .nil (1, 2) .nil) (2, 1)], .red, .nil, (3, 99), .nil⟩ =
    .node .black (.node .red .nil (1, 1) .nil) (2, 3) (.node .red .nil (3, 1) .nil) := by decide

/-- erasing the root of that tree: the successor 3 is the deepest node, and takes the root's place -/
example : eraseBegin (σ := Nat) ⟨[], .black, .node .red .nil (1, 1) .nil, (2, 3), .node .red .nil (3, 1) .nil⟩
    = some (some 3) := by decide

example : Hist cnt (.node .black .nil ((1 : Nat), 1) .nil) :=
  .ins [] 1 7 _ ⟨[], .black, .nil, (1, 7), .nil⟩ .empty (by simp [ids, zip, Tree.inorder]) rfl rfl rfl

end Kasync.RB.Augment
