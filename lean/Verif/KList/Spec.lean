import Verif.KList.Model

/-! # What it means for memory to hold the list `xs` with header `l` -/

namespace Kasync.KList

/-- Consecutive addresses of the path are linked both ways. -/
def Path (m : Mem) : List Nat → Prop
  | a :: b :: t => m.next a = b ∧ m.prev b = a ∧ Path m (b :: t)
  | _ => True

/-- The memory holds a list with header `l` and elements `xs`, first to last: all cells are valid and pairwise
different, and going from the header over the elements back to the header all links agree. -/
def IsList (m : Mem) (l : Nat) (xs : List Nat) : Prop :=
  (∀ a ∈ l :: xs, m.valid a = true) ∧ (l :: xs).Nodup ∧ Path m (l :: xs ++ [l])

/-- forward links only -/
def FPath (m : Mem) : List Nat → Prop
  | a :: b :: t => m.next a = b ∧ FPath m (b :: t)
  | _ => True

/-- The memory holds a singly linked ring with header `l` and elements `xs`. -/
def IsFList (m : Mem) (l : Nat) (xs : List Nat) : Prop :=
  (∀ a ∈ l :: xs, m.valid a = true) ∧ (l :: xs).Nodup ∧ FPath m (l :: xs ++ [l])

/-- The two memories agree on the cells in `as`. -/
def AgreeOn (m m' : Mem) (as : List Nat) : Prop :=
  ∀ a ∈ as, m'.next a = m.next a ∧ m'.prev a = m.prev a

end Kasync.KList
