import Verif.RB.Model

/-!
# Augmented trees: `rb_augment_insert`, `rb_augment_erase_begin`, `rb_augment_erase_end`

src/krbtree.c:338-405.  A node carries, besides its identity `ι` (its address), a summary `σ` of its
subtree kept in the structure the node is embedded in; the payload of the zipper model is the pair.
The callback `func(node, data)` recomputes the summary of one node from the node itself and the
summaries of its two children: `F id (summary of left, none if NULL) (summary of right)`.
Simplification: callbacks that look at anything else are not modelled.
-/

namespace Kasync.RB.Augment

variable {ι σ : Type}

/-- The summary stored in a node, `none` for a NULL pointer (what the callback reads through
`node->rb_left` / `node->rb_right`, include/krbtree.h:20-28). -/
def sum : Tree (ι × σ) → Option σ
  | .nil => none
  | .node _ _ x _ => some x.2

/-- One call `func(node, data)`, src/krbtree.c:343, 349, 351 (`rb_augment_f`, src/krbtree.c:57). -/
def func (F : ι → Option σ → Option σ → σ) : Tree (ι × σ) → Tree (ι × σ)
  | .nil => .nil
  | .node c l x r => .node c l (x.1, F x.1 (sum l) (sum r)) r

/-- `rb_augment_path`, src/krbtree.c:338-355: `func` on the node, then on its sibling when there is
one (348-351: a left child without a sibling is recomputed once more), then the same for the parent. -/
def augPath (F : ι → Option σ → Option σ → σ) (t : Tree (ι × σ)) : Path (ι × σ) → Tree (ι × σ)
  | [] => func F t
  | .left c x .nil :: p => augPath F (.node c (func F (func F t)) x .nil) p
  | .left c x (.node rc rl rx rr) :: p =>
    augPath F (.node c (func F t) x (func F (.node rc rl rx rr))) p
  | .right c l x :: p => augPath F (.node c (func F l) x (func F t)) p

/-- `rb_augment_insert`, src/krbtree.c:361-369, on the node at a location (after `rb_insert_color`). -/
def augInsert (F : ι → Option σ → Option σ → σ) (z : Loc (ι × σ)) : Tree (ι × σ) :=
  match z.l, z.r with
  | .node c l x r, _ => augPath F (.node c l x r) (.left z.c z.x z.r :: z.path)
  | .nil, .node c l x r => augPath F (.node c l x r) (.right z.c z.l z.x :: z.path)
  | .nil, .nil => augPath F z.tree z.path

/-- The identity of the root of a subtree, `none` for NULL. -/
def rootId : Tree (ι × σ) → Option ι
  | .nil => none
  | .node _ _ x _ => some x.1

/-- The identity of the parent: `rb_parent(node)`, src/krbtree.c:8. -/
def parentId : Path (ι × σ) → Option ι
  | [] => none
  | .left _ x _ :: _ => some x.1
  | .right _ _ x :: _ => some x.1

/-- `rb_augment_erase_begin`, src/krbtree.c:375-394: the node handed to `rb_augment_erase_end`,
`none` for NULL.  The outer `Option` is the outcome "NULL pointer dereferenced" (388). -/
def eraseBegin [DecidableEq ι] (z : Loc (ι × σ)) : Option (Option ι) :=
  match z.l, z.r with
  | .nil, .nil => some (parentId z.path)                                   -- 379-380
  | .node _ _ x _, .nil => some (some x.1)                                 -- 381-382
  | .nil, .node _ _ x _ => some (some x.1)                                 -- 383-384
  | .node .., .node .. =>
    match next z with                                                      -- 386
    | none => none
    | some y =>
      match rootId y.r with
      | some d => some (some d)                                            -- 387-388
      | none =>
        if parentId y.path ≠ some z.x.1 then some (parentId y.path)        -- 389-390
        else some (some y.x.1)

/-- `rb_augment_erase_end` with a node still in the tree, src/krbtree.c:400-404.  (With NULL, and
before it in the model's use of the pair, nothing happens: 402.) -/
def augErase (F : ι → Option σ → Option σ → σ) (y : Loc (ι × σ)) : Tree (ι × σ) :=
  augPath F y.tree y.path

end Kasync.RB.Augment
