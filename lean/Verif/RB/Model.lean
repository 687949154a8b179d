/-!
# Model of src/krbtree.c (functional / zipper level)

A node of the C tree (`struct krb_node`, include/krbtree.h:20-28) is a `Tree.node`.  The parent
pointer stored in `rb_parent_color` is represented by a *zipper*: a pointer to a node inside a tree
is a pair (subtree rooted at the node, path of `Frame`s from that node up to the root).  The payload
`x` stands for the identity of the node (address and `data`).  `none` is the outcome
"the code dereferences a NULL pointer" (undefined behaviour); theorems in `Verif.RB.Props` show that it is
never reached on trees produced by the API.

The pointer-level model, with explicit addresses and parent links, is in `Verif.RB.Heap`.
-/

namespace Kasync.RB

/-- RB_RED / RB_BLACK, include/krbtree.h:23-24 -/
inductive Color where
  | red | black
  deriving DecidableEq, Repr

/-- `struct krb_node` with its two child links, include/krbtree.h:20-28; `nil` is NULL. -/
inductive Tree (α : Type) where
  | nil
  | node (c : Color) (l : Tree α) (x : α) (r : Tree α)
  deriving Repr, DecidableEq

/-- One step up the `rb_parent` chain (src/krbtree.c:8).  `left c x r`: we are the left child of a node
with colour `c`, payload `x` and right child `r`; `right c l x`: we are its right child. -/
inductive Frame (α : Type) where
  | left (c : Color) (x : α) (r : Tree α)
  | right (c : Color) (l : Tree α) (x : α)
  deriving Repr, DecidableEq

/-- The chain of parents, nearest first; `[]` means `rb_parent(node) == NULL`. -/
abbrev Path (α : Type) := List (Frame α)

variable {α κ : Type}

/-- Attach a subtree below one parent. -/
def Frame.plug (t : Tree α) : Frame α → Tree α
  | .left c x r => .node c t x r
  | .right c l x => .node c l x t

/-- The whole tree seen from a location; `root->rb_node`. -/
def zip : Path α → Tree α → Tree α
  | [], t => t
  | f :: p, t => zip p (f.plug t)

/-- `node && rb_is_red(node)`, src/krbtree.c:10 -/
def Tree.isRed : Tree α → Bool
  | .node .red _ _ _ => true
  | _ => false

/-- `if (node) rb_set_black(node)`, src/krbtree.c:13 -/
def Tree.setBlack : Tree α → Tree α
  | .nil => .nil
  | .node _ l x r => .node .black l x r

/-- In-order listing of the nodes of a tree (used to observe a tree, not part of the code). -/
def Tree.inorder : Tree α → List α
  | .nil => []
  | .node _ l x r => l.inorder ++ x :: r.inorder

/-- Number of nodes. -/
def Tree.size : Tree α → Nat
  | .nil => 0
  | .node _ l _ r => l.size + 1 + r.size

/-- Number of nodes on the longest root-to-NULL path: the worst number of comparisons of a lookup. -/
def Tree.height : Tree α → Nat
  | .nil => 0
  | .node _ l _ r => max l.height r.height + 1

/-- `rb_insert_color`, src/krbtree.c:123-187, `n` being the (red) node under repair and the path its
ancestors.  Each equation is one pass through the loop body; after a rotation (156, 182) the node
under repair has a black parent, so the `while` test at 127 fails and only line 186 remains.
A red parent without a grandparent would dereference NULL at 131. -/
def insertColor (n : Tree α) : Path α → Option (Tree α)
  | [] => some n.setBlack
  | .left .black x r :: p => some (zip p (.node .black n x r)).setBlack
  | .right .black l x :: p => some (zip p (.node .black l x n)).setBlack
  | [.left .red _ _] => none
  | [.right .red _ _] => none
  -- parent == gparent->rb_left, node == parent->rb_left  (131-157)
  | .left .red px pr :: .left _ gx u :: p =>
    if u.isRed then
      insertColor (.node .red (.node .black n px pr) gx u.setBlack) p
    else
      some (zip p (.node .black n px (.node .red pr gx u))).setBlack
  -- parent == gparent->rb_left, node == parent->rb_right: first rotate left at parent (145-152)
  | .right .red pl px :: .left _ gx u :: p =>
    if u.isRed then
      insertColor (.node .red (.node .black pl px n) gx u.setBlack) p
    else
      match n with
      | .nil => none
      | .node _ nl nx nr =>
        some (zip p (.node .black (.node .red pl px nl) nx (.node .red nr gx u))).setBlack
  -- parent == gparent->rb_right, node == parent->rb_right  (158-183)
  | .right .red pl px :: .right _ u gx :: p =>
    if u.isRed then
      insertColor (.node .red u.setBlack gx (.node .black pl px n)) p
    else
      some (zip p (.node .black (.node .red u gx pl) px n)).setBlack
  -- parent == gparent->rb_right, node == parent->rb_left: first rotate right at parent (171-178)
  | .left .red px pr :: .right _ u gx :: p =>
    if u.isRed then
      insertColor (.node .red u.setBlack gx (.node .black n px pr)) p
    else
      match n with
      | .nil => none
      | .node _ nl nx nr =>
        some (zip p (.node .black (.node .red u gx nl) nx (.node .red nr px pr))).setBlack

/-- Outcome of one pass of the `__rb_erase_color` loop after the red-sibling rotation. -/
inductive EraseStep (α : Type) where
  /-- lines 209-211 / 243-245: `node = parent`, the loop goes on one level higher -/
  | up (t : Tree α)
  /-- lines 222-227 / 256-261: `node = root`, `break`; the tree replaces the parent -/
  | done (t : Tree α)

/-- `__rb_erase_color` lines 206-228: `node` (subtree `n`) is the left child of a parent with colour `pc`
and payload `px`; `other` is the (black) sibling.  `none`: NULL dereference (206 with other == NULL). -/
def eraseLeft (n : Tree α) (pc : Color) (px : α) : Tree α → Option (EraseStep α)
  | .nil => none
  | .node _ ol ox or =>
    if ol.isRed = false ∧ or.isRed = false then
      some (.up (.node pc n px (.node .red ol ox or)))
    else if or.isRed = false then
      -- 215-221: rotate right at other, the new `other` is other->rb_left
      match ol with
      | .nil => none
      | .node _ oll olx olr =>
        -- 222-225; `other->rb_right` is the old `other`
        some (.done (.node pc (.node .black n px oll) olx (.node .black olr ox or)))
    else
      some (.done (.node pc (.node .black n px ol) ox or.setBlack))

/-- `__rb_erase_color` lines 240-262, mirror image: `node` is the right child. -/
def eraseRight (n : Tree α) (pc : Color) (px : α) : Tree α → Option (EraseStep α)
  | .nil => none
  | .node _ ol ox or =>
    if ol.isRed = false ∧ or.isRed = false then
      some (.up (.node pc (.node .red ol ox or) px n))
    else if ol.isRed = false then
      match or with
      | .nil => none
      | .node _ orl orx orr =>
        some (.done (.node pc (.node .black ol ox orl) orx (.node .black orr px n)))
    else
      some (.done (.node pc ol.setBlack ox (.node .black or px n)))

/-- `node = root->rb_node; break; ... rb_set_black(node)` after a `done` step (226, 260, 265-266). -/
def eraseDone (t : Tree α) (p : Path α) : Tree α := (zip p t).setBlack

/-- `__rb_erase_color`, src/krbtree.c:189-267.  The path is that of `node`; `[]` is
`node == root->rb_node`.  In the red-sibling case (199-205, 233-239) the parent has been coloured red, so
if the pass then ends with `node = parent` the `while` test at 194 fails and line 266 blackens it. -/
def eraseColor (n : Tree α) : Path α → Option (Tree α)
  | [] => some n.setBlack
  | .left pc px o :: p =>
    if n.isRed then some (zip (.left pc px o :: p) n.setBlack) else
    match o with
    | .nil => none
    | .node .red ol ox or =>
      match eraseLeft n .red px ol with
      | none => none
      | some (.up t) => some (zip (.left .black ox or :: p) t.setBlack)
      | some (.done t) => some (eraseDone t (.left .black ox or :: p))
    | .node .black ol ox or =>
      match eraseLeft n pc px (.node .black ol ox or) with
      | none => none
      | some (.up t) => eraseColor t p
      | some (.done t) => some (eraseDone t p)
  | .right pc o px :: p =>
    if n.isRed then some (zip (.right pc o px :: p) n.setBlack) else
    match o with
    | .nil => none
    | .node .red ol ox or =>
      match eraseRight n .red px or with
      | none => none
      | some (.up t) => some (zip (.right .black ol ox :: p) t.setBlack)
      | some (.done t) => some (eraseDone t (.right .black ol ox :: p))
    | .node .black ol ox or =>
      match eraseRight n pc px (.node .black ol ox or) with
      | none => none
      | some (.up t) => eraseColor t p
      | some (.done t) => some (eraseDone t p)

/-- `color: if (color == RB_BLACK) __rb_erase_color(...)`, src/krbtree.c:333-335 -/
def eraseFinish (color : Color) (child : Tree α) (p : Path α) : Option (Tree α) :=
  match color with
  | .black => eraseColor child p
  | .red => some (zip p child)

/-- The search for the successor, src/krbtree.c:282-284: walks down left links, returning the node
found (colour, payload, right child) and the frames between it and the start, nearest first. -/
def descendLeft : Tree α → Path α → Option (Color × α × Tree α × Path α)
  | .nil, _ => none
  | .node c .nil x r, p => some (c, x, r, p)
  | .node c (.node lc ll lx lr) x r, p => descendLeft (.node lc ll lx lr) (.left c x r :: p)

/-- `rb_erase`, src/krbtree.c:269-336, on the node at the given location. -/
def erase (p : Path α) : Tree α → Option (Tree α)
  | .nil => none
  | .node c .nil _ r => eraseFinish c r p                 -- 274-275, 318-335
  | .node c l _ .nil => eraseFinish c l p                 -- 276-277
  | .node c l _ (.node rc rl rx rr) =>                    -- 278-316
    match descendLeft (.node rc rl rx rr) [] with
    | none => none
    -- the successor takes old's colour, parent and left child; its right child takes its place
    | some (sc, sx, child, q) => eraseFinish sc child (q ++ .right c l sx :: p)

/-- Location in a tree: the node pointer used by `rb_next`, `rb_prev`, `rbtree_remove`. -/
structure Loc (α : Type) where
  path : Path α
  c : Color
  l : Tree α
  x : α
  r : Tree α
  deriving Repr

/-- The subtree a location points at. -/
def Loc.tree (z : Loc α) : Tree α := .node z.c z.l z.x z.r

/-- The whole tree a location lies in. -/
def Loc.root (z : Loc α) : Tree α := zip z.path z.tree

/-- Follow left links as far as possible: src/krbtree.c:416-417, 444-445. -/
def leftmost : Tree α → Path α → Option (Loc α)
  | .nil, _ => none
  | .node c .nil x r, p => some ⟨p, c, .nil, x, r⟩
  | .node c (.node lc ll lx lr) x r, p => leftmost (.node lc ll lx lr) (.left c x r :: p)

/-- Follow right links as far as possible: src/krbtree.c:428-429, 472-473. -/
def rightmost : Tree α → Path α → Option (Loc α)
  | .nil, _ => none
  | .node c l x .nil, p => some ⟨p, c, l, x, .nil⟩
  | .node c l x (.node rc rl rx rr), p => rightmost (.node rc rl rx rr) (.right c l x :: p)

/-- `rb_first`, src/krbtree.c:409-419 -/
def first (t : Tree α) : Option (Loc α) := leftmost t []

/-- `rb_last`, src/krbtree.c:421-431 -/
def last (t : Tree α) : Option (Loc α) := rightmost t []

/-- Climb while we are a right child: src/krbtree.c:455-458. -/
def climbRight (t : Tree α) : Path α → Option (Loc α)
  | [] => none
  | .left c x r :: p => some ⟨p, c, t, x, r⟩
  | .right c l x :: p => climbRight (.node c l x t) p

/-- Climb while we are a left child: src/krbtree.c:479-482. -/
def climbLeft (t : Tree α) : Path α → Option (Loc α)
  | [] => none
  | .right c l x :: p => some ⟨p, c, l, x, t⟩
  | .left c x r :: p => climbLeft (.node c t x r) p

/-- `rb_next`, src/krbtree.c:433-459 -/
def next (z : Loc α) : Option (Loc α) :=
  match z.r with
  | .nil => climbRight z.tree z.path
  | .node rc rl rx rr => leftmost (.node rc rl rx rr) (.right z.c z.l z.x :: z.path)

/-- `rb_prev`, src/krbtree.c:461-483 -/
def prev (z : Loc α) : Option (Loc α) :=
  match z.l with
  | .nil => climbLeft z.tree z.path
  | .node lc ll lx lr => rightmost (.node lc ll lx lr) (.left z.c z.x z.r :: z.path)

/-- `rbtree_find`, src/krbtree.c:565-578; `cmp k x` is the sign of `c(key, node->data)`.
The returned location stands for the node pointer. -/
def findLoc (cmp : κ → α → Int) (k : κ) : Tree α → Path α → Option (Loc α)
  | .nil, _ => none
  | .node c l x r, p =>
    if cmp k x < 0 then findLoc cmp k l (.left c x r :: p)
    else if cmp k x > 0 then findLoc cmp k r (.right c l x :: p)
    else some ⟨p, c, l, x, r⟩

/-- `rbtree_find`, src/krbtree.c:565-578 -/
def find (cmp : κ → α → Int) (k : κ) (t : Tree α) : Option (Loc α) := findLoc cmp k t []

/-- `rbtree_find2`, src/krbtree.c:523-539: the node found or the last node inspected, and the last
comparison result (`*result` keeps its old value `r0` on an empty tree). -/
def find2 (cmp : κ → α → Int) (k : κ) (r0 : Int) (lastNode : Option α) : Tree α → Option α × Int
  | .nil => (lastNode, r0)
  | .node _ l x r =>
    if cmp k x < 0 then find2 cmp k (cmp k x) (some x) l
    else if cmp k x > 0 then find2 cmp k (cmp k x) (some x) r
    else (some x, cmp k x)

/-- `rbtree_find_cover`, src/krbtree.c:540-564; `root` is the whole tree for the `rb_last` fallback. -/
def findCoverLoc (cmp : κ → α → Int) (k : κ) (root : Tree α) : Tree α → Path α → Option (Loc α)
  | .nil, _ => none
  | .node c l x r, p =>
    if cmp k x < 0 then
      match l with
      | .nil =>
        match prev ⟨p, c, .nil, x, r⟩ with
        | none => last root
        | some z => some z
      | .node lc ll lx lr => findCoverLoc cmp k root (.node lc ll lx lr) (.left c x r :: p)
    else if cmp k x > 0 then
      match r with
      | .nil => some ⟨p, c, l, x, .nil⟩
      | .node rc rl rx rr => findCoverLoc cmp k root (.node rc rl rx rr) (.right c l x :: p)
    else some ⟨p, c, l, x, r⟩

/-- `rbtree_find_cover`, src/krbtree.c:540-564 -/
def findCover (cmp : κ → α → Int) (k : κ) (t : Tree α) : Option (Loc α) := findCoverLoc cmp k t t []

/-- Result of `rbtree_insert`: the node returned, `*new_flag`, and the tree afterwards. -/
structure InsertResult (α : Type) where
  node : α
  isNew : Bool
  tree : Tree α

/-- `rbtree_insert`/`rbtree_insert2`, src/krbtree.c:590-631: search for the insertion point; the fresh
red node is linked (rb_link_node, include/krbtree.h:64-69) and the tree repaired.  Simplification: the C
code leaves `data` of the new node to the caller; the model receives the finished payload `a`. -/
def insertLoc (cmp : κ → α → Int) (k : κ) (a : α) (root : Tree α) : Tree α → Path α → Option (InsertResult α)
  | .nil, p =>
    match insertColor (.node .red .nil a .nil) p with
    | none => none
    | some t => some ⟨a, true, t⟩
  | .node c l x r, p =>
    if cmp k x < 0 then insertLoc cmp k a root l (.left c x r :: p)
    else if cmp k x > 0 then insertLoc cmp k a root r (.right c l x :: p)
    else some ⟨x, false, root⟩

/-- `rbtree_insert`, src/krbtree.c:590-610 -/
def insert (cmp : κ → α → Int) (k : κ) (a : α) (t : Tree α) : Option (InsertResult α) :=
  insertLoc cmp k a t t []

/-- `rbtree_remove`, src/krbtree.c:579-583, on a node pointer. -/
def removeAt (z : Loc α) : Option (Tree α) := erase z.path z.tree

/-- `iterator_ret`, include/krbtree.h:11-17 -/
inductive Verdict where
  | cont | removeCont | brk | removeBrk
  deriving DecidableEq, Repr

/-- The node pointer `nn` kept by `rbtree_iterator` across a removal still points at the same node, whose
place in the tree may have changed; `locate a` is that place.  (Pure bookkeeping of the zipper
representation; there is no such search in the C code.) -/
def locate [DecidableEq α] (a : α) : Tree α → Path α → Option (Loc α)
  | .nil, _ => none
  | .node c l x r, p =>
    if x = a then some ⟨p, c, l, x, r⟩
    else (locate a l (.left c x r :: p)).orElse (fun _ => locate a r (.right c l x :: p))

/-- Result of `rbtree_iterator`: final tree, callback state, nodes the callback was called on. -/
structure IterResult (α σ : Type) where
  tree : Tree α
  state : σ
  visited : List α

/-- `rbtree_iterator`, src/krbtree.c:632-652, from the loop head with `node = z`.  The callback is a
state transformer.  The loop is bounded by `fuel`; `none` means undefined behaviour or fuel exhausted. -/
def iterLoop [DecidableEq α] {σ : Type} (cb : σ → α → Verdict × σ) :
    Nat → Tree α → Option (Loc α) → σ → List α → Option (IterResult α σ)
  | _, t, none, s, vis => some ⟨t, s, vis⟩
  | 0, _, some _, _, _ => none
  | fuel + 1, t, some z, s, vis =>
    let nn := next z
    match cb s z.x with
    | (.brk, s') => some ⟨t, s', vis ++ [z.x]⟩
    | (.cont, s') => iterLoop cb fuel t nn s' (vis ++ [z.x])
    | (.removeBrk, s') =>
      match removeAt z with
      | none => none
      | some t' => some ⟨t', s', vis ++ [z.x]⟩
    | (.removeCont, s') =>
      match removeAt z with
      | none => none
      | some t' =>
        match nn with
        | none => iterLoop cb fuel t' none s' (vis ++ [z.x])
        | some z' =>
          match locate z'.x t' [] with
          | none => none
          | some z'' => iterLoop cb fuel t' (some z'') s' (vis ++ [z.x])

/-- `rbtree_iterator`, src/krbtree.c:632-652 -/
def iterate [DecidableEq α] {σ : Type} (cb : σ → α → Verdict × σ) (fuel : Nat) (t : Tree α) (s : σ) :
    Option (IterResult α σ) :=
  iterLoop cb fuel t (first t) s []

/-- A client loop `for (n = rb_first(t); n; n = rb_next(n))` collecting the nodes. -/
def walkNext : Nat → Option (Loc α) → Option (List α)
  | _, none => some []
  | 0, some _ => none
  | fuel + 1, some z => (walkNext fuel (next z)).map (z.x :: ·)

/-- A client loop `for (n = rb_last(t); n; n = rb_prev(n))` collecting the nodes. -/
def walkPrev : Nat → Option (Loc α) → Option (List α)
  | _, none => some []
  | 0, some _ => none
  | fuel + 1, some z => (walkPrev fuel (prev z)).map (z.x :: ·)

/-- `rb_replace_node`, src/krbtree.c:485-507: the node at `z` is replaced by node `y`, which takes its
links and colour.  Note that `*n = *victim` (506) also copies `data`; `y` here is the node identity. -/
def replaceAt (z : Loc α) (y : α) : Tree α := zip z.path (.node z.c z.l y z.r)

end Kasync.RB
