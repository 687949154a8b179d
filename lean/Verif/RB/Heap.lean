import Verif.RB.Spec

/-!
# Pointer-level model of src/krbtree.c

The code statement by statement: nodes live at 64-bit addresses, the parent pointer and the colour share the word `rb_parent_color`, every access to a node goes through
`load`, which is `none` for NULL and for memory that is not an allocated node (`none` = undefined behaviour, or a loop that does not end: the loops are least fixed points).
`Verif.RB.HeapProps` shows that this code does exactly what the functional model `Verif.RB.Model` does.

Simplification: the compiler reads a field once where the source reads it twice without a write in between.
-/

namespace Kasync.RBHeap
open Kasync.RB (Color Tree Frame Path zip Verdict)

abbrev Ptr := BitVec 64

/-- `struct krb_node`, include/krbtree.h:20-28; `δ` is what `data` points to -/
structure Node (δ : Type) where
  pc : BitVec 64
  left : Ptr
  right : Ptr
  data : δ

/-- the allocated nodes and `root->rb_node`, include/krbtree.h:29-36 -/
structure Heap (δ : Type) where
  mem : Ptr → Option (Node δ)
  root : Ptr

variable {δ κ : Type}

/-- `rb_parent(r)`, src/krbtree.c:8 -/
def rbParent (w : BitVec 64) : Ptr := w &&& ~~~3#64
/-- `rb_color(r)`, src/krbtree.c:9; RB_RED is 0 and RB_BLACK 1 -/
def rbColor (w : BitVec 64) : Color := if w &&& 1#64 = 0#64 then .red else .black
/-- `rb_set_red`, src/krbtree.c:12 -/
def setRedW (w : BitVec 64) : BitVec 64 := w &&& ~~~1#64
/-- `rb_set_black`, src/krbtree.c:13 -/
def setBlackW (w : BitVec 64) : BitVec 64 := w ||| 1#64
/-- `rb_set_parent`, src/krbtree.c:38-41 -/
def setParentW (w : BitVec 64) (p : Ptr) : BitVec 64 := (w &&& 3#64) ||| p
/-- the number of a colour -/
def Color.num : Color → BitVec 64
  | .red => 0#64
  | .black => 1#64
/-- `rb_set_color`, src/krbtree.c:42-45 -/
def setColorW (w : BitVec 64) (c : Color) : BitVec 64 := (w &&& ~~~1#64) ||| Color.num c

/-- reading a node -/
def Heap.load (h : Heap δ) (p : Ptr) : Option (Node δ) := if p = 0 then none else h.mem p

/-- putting a node into memory -/
def Heap.set (h : Heap δ) (p : Ptr) (n : Node δ) : Heap δ := { h with mem := fun q => if q = p then some n else h.mem q }

/-- changing a field of a node -/
def Heap.modify (h : Heap δ) (p : Ptr) (f : Node δ → Node δ) : Option (Heap δ) :=
  match h.load p with
  | none => none
  | some n => some (h.set p (f n))

/-- `p->rb_left = q` -/
def setLeft (h : Heap δ) (p q : Ptr) : Option (Heap δ) := h.modify p (fun n => { n with left := q })
/-- `p->rb_right = q` -/
def setRight (h : Heap δ) (p q : Ptr) : Option (Heap δ) := h.modify p (fun n => { n with right := q })
/-- `rb_set_parent(p, q)` -/
def setParent (h : Heap δ) (p q : Ptr) : Option (Heap δ) := h.modify p (fun n => { n with pc := setParentW n.pc q })
/-- `rb_set_black(p)` -/
def setBlack (h : Heap δ) (p : Ptr) : Option (Heap δ) := h.modify p (fun n => { n with pc := setBlackW n.pc })
/-- `rb_set_red(p)` -/
def setRed (h : Heap δ) (p : Ptr) : Option (Heap δ) := h.modify p (fun n => { n with pc := setRedW n.pc })
/-- `rb_set_color(p, c)` -/
def setColor (h : Heap δ) (p : Ptr) (c : Color) : Option (Heap δ) := h.modify p (fun n => { n with pc := setColorW n.pc c })
/-- `if (p) rb_set_parent(p, q)` -/
def setParentIf (h : Heap δ) (p q : Ptr) : Option (Heap δ) := if p ≠ 0 then setParent h p q else some h
/-- `p && rb_is_red(p)` -/
def isRed (h : Heap δ) (p : Ptr) : Option Bool :=
  if p = 0 then some false else (h.load p).map (fun n => rbColor n.pc = .red)

/-- `if (parent) { if (parent->rb_left == old) parent->rb_left = new; else parent->rb_right = new; } else root->rb_node = new;`
src/krbtree.c:88-96, 286-293, 323-331, 491-499 -/
def relink (h : Heap δ) (parent old new : Ptr) : Option (Heap δ) :=
  if parent ≠ 0 then do
    let pn ← h.load parent
    if pn.left = old then setLeft h parent new else setRight h parent new
  else some { h with root := new }

/-- the same with the right link tested first, src/krbtree.c:111-119 -/
def relinkR (h : Heap δ) (parent old new : Ptr) : Option (Heap δ) :=
  if parent ≠ 0 then do
    let pn ← h.load parent
    if old = pn.right then setRight h parent new else setLeft h parent new
  else some { h with root := new }

/-- `__rb_rotate_left`, src/krbtree.c:77-98 -/
def rotateLeft (h : Heap δ) (node : Ptr) : Option (Heap δ) := do
  let n ← h.load node
  let right := n.right
  let parent := rbParent n.pc
  let rn ← h.load right
  let h ← setRight h node rn.left
  let h ← setParentIf h rn.left node
  let h ← setLeft h right node
  let h ← setParent h right parent
  let h ← relink h parent node right
  setParent h node right

/-- `__rb_rotate_right`, src/krbtree.c:100-121 -/
def rotateRight (h : Heap δ) (node : Ptr) : Option (Heap δ) := do
  let n ← h.load node
  let left := n.left
  let parent := rbParent n.pc
  let ln ← h.load left
  let h ← setLeft h node ln.right
  let h ← setParentIf h ln.right node
  let h ← setRight h left node
  let h ← setParent h left parent
  let h ← relinkR h parent node left
  setParent h node left

/-- `rb_insert_color`, src/krbtree.c:123-187, from the loop head -/
def insertColor (h : Heap δ) (node : Ptr) : Option (Heap δ) := do
  let n ← h.load node
  let parent := rbParent n.pc
  let red ← isRed h parent
  if red then
    let pn ← h.load parent
    let gparent := rbParent pn.pc
    let gn ← h.load gparent
    if parent = gn.left then
      let uncle := gn.right
      let ured ← isRed h uncle
      if ured then
        let h ← setBlack h uncle
        let h ← setBlack h parent
        let h ← setRed h gparent
        insertColor h gparent
      else if pn.right = node then
        let h ← rotateLeft h parent
        let h ← setBlack h node
        let h ← setRed h gparent
        let h ← rotateRight h gparent
        insertColor h parent
      else
        let h ← setBlack h parent
        let h ← setRed h gparent
        let h ← rotateRight h gparent
        insertColor h node
    else
      let uncle := gn.left
      let ured ← isRed h uncle
      if ured then
        let h ← setBlack h uncle
        let h ← setBlack h parent
        let h ← setRed h gparent
        insertColor h gparent
      else if pn.left = node then
        let h ← rotateRight h parent
        let h ← setBlack h node
        let h ← setRed h gparent
        let h ← rotateLeft h gparent
        insertColor h parent
      else
        let h ← setBlack h parent
        let h ← setRed h gparent
        let h ← rotateLeft h gparent
        insertColor h node
  else setBlack h h.root
partial_fixpoint

/-- `if (node) rb_set_black(node)`, src/krbtree.c:265-266 -/
def setBlackIf (h : Heap δ) (node : Ptr) : Option (Heap δ) := if node ≠ 0 then setBlack h node else some h

/-- `__rb_erase_color`, src/krbtree.c:206-228: the rest of a pass when `node` is the left child.  The result is `inl` (heap, node, parent) if the loop goes on,
`inr` the heap after `break` -/
def eraseColorLeft (h : Heap δ) (parent other : Ptr) : Option (Heap δ × Option (Ptr × Ptr)) := do
  let on ← h.load other
  let lr ← isRed h on.left
  let rr ← isRed h on.right
  if lr = false ∧ rr = false then
    let h ← setRed h other
    let pn ← h.load parent
    some (h, some (parent, rbParent pn.pc))
  else
    let (h, other) ← (if rr = false then do
        let h ← setBlack h on.left
        let h ← setRed h other
        let h ← rotateRight h other
        let pn ← h.load parent
        some (h, pn.right)
      else some (h, other))
    let pn ← h.load parent
    let h ← setColor h other (rbColor pn.pc)
    let h ← setBlack h parent
    let on ← h.load other
    let h ← setBlack h on.right
    let h ← rotateLeft h parent
    some (h, none)

/-- src/krbtree.c:240-262: the mirror image -/
def eraseColorRight (h : Heap δ) (parent other : Ptr) : Option (Heap δ × Option (Ptr × Ptr)) := do
  let on ← h.load other
  let lr ← isRed h on.left
  let rr ← isRed h on.right
  if lr = false ∧ rr = false then
    let h ← setRed h other
    let pn ← h.load parent
    some (h, some (parent, rbParent pn.pc))
  else
    let (h, other) ← (if lr = false then do
        let h ← setBlack h on.right
        let h ← setRed h other
        let h ← rotateLeft h other
        let pn ← h.load parent
        some (h, pn.left)
      else some (h, other))
    let pn ← h.load parent
    let h ← setColor h other (rbColor pn.pc)
    let h ← setBlack h parent
    let on ← h.load other
    let h ← setBlack h on.left
    let h ← rotateRight h parent
    some (h, none)

/-- one pass through the body of the loop of `__rb_erase_color`, src/krbtree.c:196-263 -/
def eraseColorBody (h : Heap δ) (node parent : Ptr) : Option (Heap δ × Option (Ptr × Ptr)) := do
  let pn ← h.load parent
  if pn.left = node then
    let other := pn.right
    let on ← h.load other
    if rbColor on.pc = .red then
      let h ← setBlack h other
      let h ← setRed h parent
      let h ← rotateLeft h parent
      let pn ← h.load parent
      eraseColorLeft h parent pn.right
    else eraseColorLeft h parent other
  else
    let other := pn.left
    let on ← h.load other
    if rbColor on.pc = .red then
      let h ← setBlack h other
      let h ← setRed h parent
      let h ← rotateRight h parent
      let pn ← h.load parent
      eraseColorRight h parent pn.left
    else eraseColorRight h parent other

/-- `__rb_erase_color`, src/krbtree.c:189-267 -/
def eraseColor (h : Heap δ) (node parent : Ptr) : Option (Heap δ) := do
  let red ← isRed h node
  if red = false ∧ node ≠ h.root then
    let r ← eraseColorBody h node parent
    match r.2 with
    | some q => eraseColor r.1 q.1 q.2
    | none => setBlackIf r.1 r.1.root
  else setBlackIf h node
partial_fixpoint

/-- `while ((left = node->rb_left) != NULL) node = left;`, src/krbtree.c:283-284, 416-417, 444-445 -/
def goLeft (h : Heap δ) (node : Ptr) : Option Ptr := do
  let n ← h.load node
  if n.left ≠ 0 then goLeft h n.left else some node
partial_fixpoint

/-- `while (node->rb_right) node = node->rb_right;`, src/krbtree.c:428-429, 472-473 -/
def goRight (h : Heap δ) (node : Ptr) : Option Ptr := do
  let n ← h.load node
  if n.right ≠ 0 then goRight h n.right else some node
partial_fixpoint

/-- `color: if (color == RB_BLACK) __rb_erase_color(child, parent, root);`, src/krbtree.c:333-335 -/
def eraseFinish (h : Heap δ) (color : Color) (child parent : Ptr) : Option (Heap δ) :=
  if color = .black then eraseColor h child parent else some h

/-- src/krbtree.c:318-335: the node has at most one child -/
def eraseOne (h : Heap δ) (node child : Ptr) : Option (Heap δ) := do
  let n ← h.load node
  let parent := rbParent n.pc
  let color := rbColor n.pc
  let h ← setParentIf h child parent
  let h ← relink h parent node child
  eraseFinish h color child parent

/-- the middle of `eraseTwo`, src/krbtree.c:298-311 -/
def eraseMid (h : Heap δ) (old node child parent : Ptr) : Option (Heap δ × Ptr) :=
  if parent = old then some (h, node)
    else do
      let h ← setParentIf h child parent
      let h ← setLeft h parent child
      let o ← h.load old
      let h ← setRight h node o.right
      let h ← setParent h o.right node
      some (h, parent)

/-- src/krbtree.c:280-315, 333-335: the node has two children -/
def eraseTwo (h : Heap δ) (old : Ptr) : Option (Heap δ) := do
  let o ← h.load old
  let node ← goLeft h o.right
  let h ← relink h (rbParent o.pc) old node
  let n ← h.load node
  let child := n.right
  let parent := rbParent n.pc
  let color := rbColor n.pc
  let (h, parent) ← eraseMid h old node child parent
  let o ← h.load old
  let h ← h.modify node (fun n => { n with pc := o.pc })
  let h ← setLeft h node o.left
  let h ← setParent h o.left node
  eraseFinish h color child parent

/-- `rb_erase`, src/krbtree.c:269-336 -/
def erase (h : Heap δ) (node : Ptr) : Option (Heap δ) := do
  let n ← h.load node
  if n.left = 0 then eraseOne h node n.right
  else if n.right = 0 then eraseOne h node n.left
  else eraseTwo h node

/-- `rb_first`, src/krbtree.c:409-419 -/
def first (h : Heap δ) : Option Ptr := if h.root = 0 then some 0 else goLeft h h.root

/-- `rb_last`, src/krbtree.c:421-431 -/
def last (h : Heap δ) : Option Ptr := if h.root = 0 then some 0 else goRight h h.root

/-- src/krbtree.c:455-458 -/
def climbRight (h : Heap δ) (node : Ptr) : Option Ptr := do
  let n ← h.load node
  let parent := rbParent n.pc
  if parent ≠ 0 then
    let pn ← h.load parent
    if node = pn.right then climbRight h parent else some parent
  else some parent
partial_fixpoint

/-- src/krbtree.c:479-482 -/
def climbLeft (h : Heap δ) (node : Ptr) : Option Ptr := do
  let n ← h.load node
  let parent := rbParent n.pc
  if parent ≠ 0 then
    let pn ← h.load parent
    if node = pn.left then climbLeft h parent else some parent
  else some parent
partial_fixpoint

/-- `rb_next`, src/krbtree.c:433-459 -/
def next (h : Heap δ) (node : Ptr) : Option Ptr := do
  let n ← h.load node
  if rbParent n.pc = node then some 0
  else if n.right ≠ 0 then goLeft h n.right
  else climbRight h node

/-- `rb_prev`, src/krbtree.c:461-483 -/
def prev (h : Heap δ) (node : Ptr) : Option Ptr := do
  let n ← h.load node
  if rbParent n.pc = node then some 0
  else if n.left ≠ 0 then goRight h n.left
  else climbLeft h node

/-- `rb_replace_node`, src/krbtree.c:485-507 -/
def replaceNode (h : Heap δ) (victim n : Ptr) : Option (Heap δ) := do
  let v ← h.load victim
  let h ← relink h (rbParent v.pc) victim n
  let h ← setParentIf h v.left n
  let h ← setParentIf h v.right n
  let v ← h.load victim
  h.modify n (fun _ => v)

/-- `rbtree_find` from `node` on, src/krbtree.c:565-578; `cmp k d` is `c(key, node->data)` -/
def findFrom (cmp : κ → δ → Int) (k : κ) (h : Heap δ) (node : Ptr) : Option Ptr :=
  if node = 0 then some 0 else do
    let n ← h.load node
    if cmp k n.data < 0 then findFrom cmp k h n.left
    else if cmp k n.data > 0 then findFrom cmp k h n.right
    else some node
partial_fixpoint

/-- `rbtree_find`, src/krbtree.c:565-578 -/
def find (cmp : κ → δ → Int) (k : κ) (h : Heap δ) : Option Ptr := findFrom cmp k h h.root

/-- `rbtree_find_cover` from `node` on, src/krbtree.c:540-564 -/
def findCoverFrom (cmp : κ → δ → Int) (k : κ) (h : Heap δ) (node : Ptr) : Option Ptr :=
  if node = 0 then some 0 else do
    let n ← h.load node
    if cmp k n.data < 0 then
      if n.left = 0 then
        let p ← prev h node
        if p = 0 then last h else some p
      else findCoverFrom cmp k h n.left
    else if cmp k n.data > 0 then
      if n.right = 0 then some node else findCoverFrom cmp k h n.right
    else some node
partial_fixpoint

/-- `rbtree_find_cover`, src/krbtree.c:540-564 -/
def findCover (cmp : κ → δ → Int) (k : κ) (h : Heap δ) : Option Ptr := findCoverFrom cmp k h h.root

/-- a `struct krb_node **`: where the new node is to be linked -/
inductive Link where
  | root
  | left (p : Ptr)
  | right (p : Ptr)

/-- `*n` -/
def Link.read (h : Heap δ) : Link → Option Ptr
  | .root => some h.root
  | .left p => (h.load p).map Node.left
  | .right p => (h.load p).map Node.right

/-- `*n = q` -/
def Link.write (h : Heap δ) (q : Ptr) : Link → Option (Heap δ)
  | .root => some { h with root := q }
  | .left p => setLeft h p q
  | .right p => setRight h p q

/-- the search loop of `rbtree_insert`, src/krbtree.c:593-604: a node with the key, or the place and the parent of the new node -/
def insertSearch (cmp : κ → δ → Int) (k : κ) (h : Heap δ) (n : Link) (parent : Ptr) : Option (Ptr ⊕ (Link × Ptr)) := do
  let q ← n.read h
  if q = 0 then some (.inr (n, parent)) else
    let qn ← h.load q
    if cmp k qn.data < 0 then insertSearch cmp k h (.left q) q
    else if cmp k qn.data > 0 then insertSearch cmp k h (.right q) q
    else some (.inl q)
partial_fixpoint

/-- `rb_link_node`, include/krbtree.h:64-69 -/
def linkNode (h : Heap δ) (node parent : Ptr) (n : Link) : Option (Heap δ) := do
  let h ← h.modify node (fun m => { m with pc := parent, left := 0, right := 0 })
  n.write h node

/-- `rbtree_insert`, src/krbtree.c:590-610; `a` is what `xmalloc` returns and `junk` what it contains.  Result: heap, node, `*new_flag`. -/
def insert (cmp : κ → δ → Int) (k : κ) (a : Ptr) (junk : Node δ) (h : Heap δ) : Option (Heap δ × Ptr × Bool) := do
  let r ← insertSearch cmp k h .root 0
  match r with
  | .inl q => some (h, q, false)
  | .inr (n, parent) =>
    let h := h.set a junk
    let h ← linkNode h a parent n
    let h ← insertColor h a
    some (h, a, true)

/-- `rbtree_remove`, src/krbtree.c:579-583 -/
def remove (h : Heap δ) (node : Ptr) : Option (Heap δ) := do
  let h ← erase h node
  some { h with mem := fun q => if q = node then none else h.mem q }

/-- `rbtree_iterator` from the loop head, src/krbtree.c:632-652; the callback is a state transformer.  Result: heap, callback state, nodes visited. -/
def iterFrom {σ : Type} (cb : σ → δ → Verdict × σ) (h : Heap δ) (node : Ptr) (s : σ) (vis : List Ptr) : Option (Heap δ × σ × List Ptr) :=
  if node = 0 then some (h, s, vis) else do
    let nn ← next h node
    let n ← h.load node
    match cb s n.data with
    | (.brk, s') => some (h, s', vis ++ [node])
    | (.cont, s') => iterFrom cb h nn s' (vis ++ [node])
    | (.removeBrk, s') =>
      let h ← remove h node
      some (h, s', vis ++ [node])
    | (.removeCont, s') =>
      let h ← remove h node
      iterFrom cb h nn s' (vis ++ [node])
partial_fixpoint

/-- `rbtree_iterator`, src/krbtree.c:632-652 -/
def iterate {σ : Type} (cb : σ → δ → Verdict × σ) (h : Heap δ) (s : σ) : Option (Heap δ × σ × List Ptr) := do
  let f ← first h
  iterFrom cb h f s []

end Kasync.RBHeap
