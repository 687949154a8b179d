import Verif.RB.Model

/-!
# Specification vocabulary for the red-black tree

Independent of the algorithms in `Verif.RB.Model`: what "red-black", "sorted", "comparator is an order" and
"ordered map" mean.
-/

namespace Kasync.RB

variable {α κ : Type}

/-- `t.BH n`: every path from the root of `t` to a NULL link passes `n` black nodes. -/
def Tree.BH : Tree α → Nat → Prop
  | .nil, n => n = 0
  | .node .red l _ r, n => l.BH n ∧ r.BH n
  | .node .black l _ r, n => ∃ m, n = m + 1 ∧ l.BH m ∧ r.BH m

/-- No red node has a red child. -/
def Tree.NoRR : Tree α → Prop
  | .nil => True
  | .node c l _ r => (c = .red → l.isRed = false ∧ r.isRed = false) ∧ l.NoRR ∧ r.NoRR

/-- A red-black tree: black root, no red node with a red child, equal black counts. -/
def Valid (t : Tree α) : Prop := t.isRed = false ∧ t.NoRR ∧ ∃ n, t.BH n

/-- A comparator given as the sign convention of `comprbt` (include/krbtree.h:6): negative, zero or
positive as the first argument is below, equal to or above the second, and total order laws. -/
structure IsOrder (cmp : κ → κ → Int) : Prop where
  eq_iff : ∀ a b, cmp a b = 0 ↔ a = b
  anti : ∀ a b, cmp a b < 0 ↔ cmp b a > 0
  trans : ∀ a b c, cmp a b < 0 → cmp b c < 0 → cmp a c < 0

/-- Strictly ascending keys. -/
def Sorted (cmp : κ → κ → Int) (key : α → κ) (l : List α) : Prop :=
  l.Pairwise (fun a b => cmp (key a) (key b) < 0)

/-- A finite map from keys to nodes: the abstract state of a tree. -/
abbrev Spec (κ α : Type) := κ → Option α

/-- Operations of a client. `remove k` is `rbtree_find` followed by `rbtree_remove` on the node found. -/
inductive Op (κ α : Type) where
  | insert (a : α)
  | remove (k : κ)
  | find (k : κ)

/-- What the client observes. -/
inductive Out (α : Type) where
  | inserted (a : α) (isNew : Bool)
  | removed (b : Bool)
  | found (a : Option α)
  deriving DecidableEq

/-- The abstract ordered map: an insert of a present key returns the stored node and changes nothing. -/
def Spec.step [DecidableEq κ] (key : α → κ) (m : Spec κ α) : Op κ α → Spec κ α × Out α
  | .insert a =>
    match m (key a) with
    | some b => (m, .inserted b false)
    | none => (fun k => if k = key a then some a else m k, .inserted a true)
  | .remove k =>
    match m k with
    | some _ => (fun k' => if k' = k then none else m k', .removed true)
    | none => (m, .removed false)
  | .find k => (m, .found (m k))

/-- Runs a whole history on the map. -/
def Spec.run [DecidableEq κ] (key : α → κ) (m : Spec κ α) : List (Op κ α) → Spec κ α × List (Out α)
  | [] => (m, [])
  | o :: os =>
    let r := Spec.step key m o
    let r' := Spec.run key r.1 os
    (r'.1, r.2 :: r'.2)

/-- One client operation on the tree of the code; `none` is undefined behaviour. -/
def stepTree (cmp : κ → κ → Int) (key : α → κ) (t : Tree α) : Op κ α → Option (Tree α × Out α)
  | .insert a =>
    match insert (fun k x => cmp k (key x)) (key a) a t with
    | none => none
    | some r => some (r.tree, .inserted r.node r.isNew)
  | .remove k =>
    match find (fun k x => cmp k (key x)) k t with
    | none => some (t, .removed false)
    | some z =>
      match removeAt z with
      | none => none
      | some t' => some (t', .removed true)
  | .find k => some (t, .found ((find (fun k x => cmp k (key x)) k t).map Loc.x))

/-- A whole history on the tree. -/
def runTree (cmp : κ → κ → Int) (key : α → κ) (t : Tree α) : List (Op κ α) → Option (Tree α × List (Out α))
  | [] => some (t, [])
  | o :: os =>
    match stepTree cmp key t o with
    | none => none
    | some (t', out) =>
      match runTree cmp key t' os with
      | none => none
      | some (t'', outs) => some (t'', out :: outs)

/-- What iterating over an ordered listing with a callback means: the callback sees the elements in
order until it asks to stop; result: (elements kept, final callback state, elements seen). -/
def specIter {σ : Type} (cb : σ → α → Verdict × σ) (s : σ) : List α → List α × σ × List α
  | [] => ([], s, [])
  | a :: as =>
    match cb s a with
    | (.brk, s') => (a :: as, s', [a])
    | (.removeBrk, s') => (as, s', [a])
    | (.cont, s') => let r := specIter cb s' as; (a :: r.1, r.2.1, a :: r.2.2)
    | (.removeCont, s') => let r := specIter cb s' as; (r.1, r.2.1, a :: r.2.2)

end Kasync.RB
