/-!
# Model of include/klist.h on a memory of link cells

Addresses are natural numbers; `valid` says which addresses hold a link structure (0 is NULL and may be made invalid).
Every macro is transcribed as its sequence of loads and stores; a load or store at an invalid address is undefined
(`none`).  Type punning by `kgl_list_data` is not modelled (the element is identified with its link).
-/

namespace Kasync.KList

/-- Memory holding `struct kgl_list_s { prev, next }` cells, include/klist.h:36-39. -/
structure Mem where
  valid : Nat → Bool
  next : Nat → Nat
  prev : Nat → Nat

/-- load `a->next` -/
def Mem.getNext (m : Mem) (a : Nat) : Option Nat := if m.valid a then some (m.next a) else none
/-- load `a->prev` -/
def Mem.getPrev (m : Mem) (a : Nat) : Option Nat := if m.valid a then some (m.prev a) else none
/-- store `a->next = v` -/
def Mem.setNext (m : Mem) (a v : Nat) : Option Mem :=
  if m.valid a then some { m with next := fun x => if x = a then v else m.next x } else none
/-- store `a->prev = v` -/
def Mem.setPrev (m : Mem) (a v : Nat) : Option Mem :=
  if m.valid a then some { m with prev := fun x => if x = a then v else m.prev x } else none

/-- `klist_init`, include/klist.h:40-43 -/
def init (m : Mem) (l : Nat) : Option Mem := do
  let m ← m.setNext l l
  m.setPrev l l

/-- `klist_empty`, include/klist.h:44 -/
def empty (m : Mem) (l : Nat) : Option Bool := do return (← m.getNext l) == l

/-- `klist_insert` (= `klist_append` = `klist_insert_tail`), include/klist.h:46-54: `x` goes before `list`. -/
def insert (m : Mem) (l x : Nat) : Option Mem := do
  let p ← m.getPrev l
  let m ← m.setPrev x p
  let xp ← m.getPrev x
  let m ← m.setNext xp x
  let m ← m.setNext x l
  m.setPrev l x

/-- `klist_remove`, include/klist.h:56-59 -/
def remove (m : Mem) (x : Nat) : Option Mem := do
  let p ← m.getPrev x
  let n ← m.getNext x
  let m ← m.setNext p n
  let n ← m.getNext x
  let p ← m.getPrev x
  m.setPrev n p

/-- `klist_foreach`, include/klist.h:62-65: the addresses visited from `pos` on; `fuel` bounds the loop. -/
def foreachFrom (m : Mem) (l : Nat) : Nat → Nat → Option (List Nat)
  | 0, _ => none
  | fuel + 1, pos => if pos = l then some [] else do
      let n ← m.getNext pos
      let r ← foreachFrom m l fuel n
      return pos :: r

/-- `klist_foreach(pos, list)` -/
def foreach (m : Mem) (l : Nat) (fuel : Nat) : Option (List Nat) := do foreachFrom m l fuel (← m.getNext l)

/-- `klist_rforeach`, include/klist.h:66-69 -/
def rforeachFrom (m : Mem) (l : Nat) : Nat → Nat → Option (List Nat)
  | 0, _ => none
  | fuel + 1, pos => if pos = l then some [] else do
      let n ← m.getPrev pos
      let r ← rforeachFrom m l fuel n
      return pos :: r

/-- `klist_rforeach(pos, list)` -/
def rforeach (m : Mem) (l : Nat) (fuel : Nat) : Option (List Nat) := do rforeachFrom m l fuel (← m.getPrev l)

/-! Singly linked ring, include/klist.h:8-33; only the `next` field is used. -/

/-- `kforward_list_init` 13-15 -/
def fInit (m : Mem) (l : Nat) : Option Mem := m.setNext l l

/-- `kforward_list_empty` 16-18 -/
def fEmpty (m : Mem) (l : Nat) : Option Bool := do return (← m.getNext l) == l

/-- `kforward_list_append` 19-22 -/
def fAppend (m : Mem) (l x : Nat) : Option Mem := do
  let n ← m.getNext l
  let m ← m.setNext x n
  m.setNext l x

/-- loop of `kfoward_list_remove` 23-33 from `pos` on -/
def fRemoveFrom (m : Mem) (l x : Nat) : Nat → Nat → Option (Mem × Bool)
  | 0, _ => none
  | fuel + 1, pos => do
      let n ← m.getNext pos
      if n = l then return (m, false)
      else if n = x then
        let xn ← m.getNext x
        let m ← m.setNext pos xn
        return (m, true)
      else fRemoveFrom m l x fuel n

/-- `kfoward_list_remove(list, item)` -/
def fRemove (m : Mem) (l x : Nat) (fuel : Nat) : Option (Mem × Bool) := fRemoveFrom m l x fuel l

end Kasync.KList
