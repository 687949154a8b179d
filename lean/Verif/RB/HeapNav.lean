import Verif.RB.HeapErase3
import Verif.RB.Search

/-!
# Navigation and search on the heap
-/

namespace Kasync.RBHeap
open Kasync.RB (Color Tree Frame Path zip Loc)

variable {δ κ : Type} {h : Heap δ} {p : Path (Ptr × δ)}

/-- the pointer to a location, NULL if there is none -/
def locPtr : Option (Loc (Ptr × δ)) → Ptr
  | none => 0
  | some z => z.x.1

theorem locPtr_some (z : Loc (Ptr × δ)) : locPtr (some z) = z.x.1 := rfl
theorem locPtr_none : locPtr (none : Option (Loc (Ptr × δ))) = 0 := rfl

theorem goLeft_leftmost (t : Tree (Ptr × δ)) : ∀ (p : Path (Ptr × δ)) (par : Ptr), t ≠ .nil → Rep h par t → goLeft h (ptr t) = some (locPtr (RB.leftmost t p)) := by
  induction t with
  | nil => intro _ _ h0; exact absurd rfl h0
  | node c l x r ihl _ =>
    intro p par _ hr
    obtain ⟨w, e1, _, _⟩ := hr.1.load
    rw [goLeft]
    simp only [ptr_node, Option.bind_eq_bind, e1, Option.bind_some]
    cases l with
    | nil => simp [ptr, RB.leftmost, locPtr]
    | node lc ll lx lr =>
      rw [if_pos (by exact hr.2.1.1.1)]
      exact ihl _ _ (by simp) hr.2.1

theorem goRight_rightmost (t : Tree (Ptr × δ)) : ∀ (p : Path (Ptr × δ)) (par : Ptr), t ≠ .nil → Rep h par t → goRight h (ptr t) = some (locPtr (RB.rightmost t p)) := by
  induction t with
  | nil => intro _ _ h0; exact absurd rfl h0
  | node c l x r _ ihr =>
    intro p par _ hr
    obtain ⟨w, e1, _, _⟩ := hr.1.load
    rw [goRight]
    simp only [ptr_node, Option.bind_eq_bind, e1, Option.bind_some]
    cases r with
    | nil => simp [ptr, RB.rightmost, locPtr]
    | node rc rl rx rr =>
      rw [if_pos (by exact hr.2.2.1.1)]
      exact ihr _ _ (by simp) hr.2.2

/-- `rb_first` -/
theorem first_refines {t : Tree (Ptr × δ)} (hi : Is h t) : first h = some (locPtr (RB.first t)) := by
  unfold first RB.first
  rw [hi.1]
  cases t with
  | nil => simp [ptr, RB.leftmost, locPtr]
  | node c l x r =>
    rw [if_neg (by exact hi.2.1.1.1)]
    exact goLeft_leftmost _ _ _ (by simp) hi.2.1

/-- `rb_last` -/
theorem last_refines {t : Tree (Ptr × δ)} (hi : Is h t) : last h = some (locPtr (RB.last t)) := by
  unfold last RB.last
  rw [hi.1]
  cases t with
  | nil => simp [ptr, RB.rightmost, locPtr]
  | node c l x r =>
    rw [if_neg (by exact hi.2.1.1.1)]
    exact goRight_rightmost _ _ _ (by simp) hi.2.1

theorem climbRight_refines (p : Path (Ptr × δ)) : ∀ (c : Color) (l r : Tree (Ptr × δ)) (x : Ptr × δ), Is h (zip p (.node c l x r)) →
    climbRight h x.1 = some (locPtr (RB.climbRight (.node c l x r) p)) := by
  induction p with
  | nil =>
    intro c l r x hi
    obtain ⟨w, e1, e2, _⟩ := hi.load
    rw [climbRight]
    simp [e1, e2, top, RB.climbRight, locPtr]
  | cons f p ih =>
    intro c l r x hi
    obtain ⟨w, e1, e2, _⟩ := hi.load
    have h0 : x.1 ≠ 0 := hi.z.2.1.1.1
    rw [climbRight]
    simp only [Option.bind_eq_bind, e1, Option.bind_some, e2]
    cases f with
    | left fc fx fr =>
      obtain ⟨w', e1', _, _⟩ := Is.load (p := p) (h := h) (c := fc) (l := .node c l x r) (x := fx) (r := fr) (by exact hi)
      have hn := hi.nodup
      simp only [pathAddrs, addrs_node, List.nodup_append, List.nodup_cons, List.mem_append, List.mem_cons] at hn
      have : x.1 ≠ ptr fr := Ne.symm (ptr_ne_of_mem h0 (by grind))
      rw [if_pos (by exact hi.z.1.1.1)]
      simp only [top_left, e1', Option.bind_some, this, if_false, RB.climbRight, locPtr]
    | right fc fl fx =>
      obtain ⟨w', e1', _, _⟩ := Is.load (p := p) (h := h) (c := fc) (l := fl) (x := fx) (r := .node c l x r) (by exact hi)
      rw [if_pos (by exact hi.z.1.1.1)]
      simp only [top_right, e1', Option.bind_some, ptr_node, if_true, RB.climbRight]
      exact ih _ _ _ _ (by exact hi)

theorem climbLeft_refines (p : Path (Ptr × δ)) : ∀ (c : Color) (l r : Tree (Ptr × δ)) (x : Ptr × δ), Is h (zip p (.node c l x r)) →
    climbLeft h x.1 = some (locPtr (RB.climbLeft (.node c l x r) p)) := by
  induction p with
  | nil =>
    intro c l r x hi
    obtain ⟨w, e1, e2, _⟩ := hi.load
    rw [climbLeft]
    simp [e1, e2, top, RB.climbLeft, locPtr]
  | cons f p ih =>
    intro c l r x hi
    obtain ⟨w, e1, e2, _⟩ := hi.load
    have h0 : x.1 ≠ 0 := hi.z.2.1.1.1
    rw [climbLeft]
    simp only [Option.bind_eq_bind, e1, Option.bind_some, e2]
    cases f with
    | right fc fl fx =>
      obtain ⟨w', e1', _, _⟩ := Is.load (p := p) (h := h) (c := fc) (l := fl) (x := fx) (r := .node c l x r) (by exact hi)
      have hn := hi.nodup
      simp only [pathAddrs, addrs_node, List.nodup_append, List.nodup_cons, List.mem_append, List.mem_cons] at hn
      have : x.1 ≠ ptr fl := Ne.symm (ptr_ne_of_mem h0 (by grind))
      rw [if_pos (by exact hi.z.1.1.1)]
      simp only [top_right, e1', Option.bind_some, this, if_false, RB.climbLeft, locPtr]
    | left fc fx fr =>
      obtain ⟨w', e1', _, _⟩ := Is.load (p := p) (h := h) (c := fc) (l := .node c l x r) (x := fx) (r := fr) (by exact hi)
      rw [if_pos (by exact hi.z.1.1.1)]
      simp only [top_left, e1', Option.bind_some, ptr_node, if_true, RB.climbLeft]
      exact ih _ _ _ _ (by exact hi)

theorem top_ne {c : Color} {l r : Tree (Ptr × δ)} {x : Ptr × δ} (hi : Is h (zip p (.node c l x r))) : top p ≠ x.1 := by
  have h0 : x.1 ≠ 0 := hi.z.2.1.1.1
  have hn := hi.nodup
  cases p with
  | nil => exact Ne.symm h0
  | cons f p => cases f <;> simp only [pathAddrs, addrs_node, List.nodup_append, List.nodup_cons, List.mem_append, List.mem_cons, top] at hn ⊢ <;> grind

/-- `rb_next` -/
theorem next_refines {z : Loc (Ptr × δ)} (hi : Is h z.root) : next h z.x.1 = some (locPtr (RB.next z)) := by
  obtain ⟨p, c, l, x, r⟩ := z
  have hi' : Is h (zip p (.node c l x r)) := hi
  obtain ⟨w, e1, e2, _⟩ := hi'.load
  unfold next RB.next
  simp only [Option.bind_eq_bind, e1, Option.bind_some, e2, top_ne hi', if_false]
  cases r with
  | nil => simp only [ptr, ne_eq, not_true, if_false]; exact climbRight_refines _ _ _ _ _ hi'
  | node rc rl rx rr =>
    rw [if_pos (by exact hi'.z.2.1.2.2.1.1)]
    exact goLeft_leftmost _ _ _ (by simp) hi'.z.2.1.2.2

/-- `rb_prev` -/
theorem prev_refines {z : Loc (Ptr × δ)} (hi : Is h z.root) : prev h z.x.1 = some (locPtr (RB.prev z)) := by
  obtain ⟨p, c, l, x, r⟩ := z
  have hi' : Is h (zip p (.node c l x r)) := hi
  obtain ⟨w, e1, e2, _⟩ := hi'.load
  unfold prev RB.prev
  simp only [Option.bind_eq_bind, e1, Option.bind_some, e2, top_ne hi', if_false]
  cases l with
  | nil => simp only [ptr, ne_eq, not_true, if_false]; exact climbLeft_refines _ _ _ _ _ hi'
  | node lc ll lx lr =>
    rw [if_pos (by exact hi'.z.2.1.2.1.1.1)]
    exact goRight_rightmost _ _ _ (by simp) hi'.z.2.1.2.1

/-- the comparison of the functional model -/
def onData (cmp : κ → δ → Int) (k : κ) (x : Ptr × δ) : Int := cmp k x.2

theorem findFrom_refines (cmp : κ → δ → Int) (k : κ) (t : Tree (Ptr × δ)) : ∀ (p : Path (Ptr × δ)) (par : Ptr), Rep h par t →
    findFrom cmp k h (ptr t) = some (locPtr (RB.findLoc (onData cmp) k t p)) := by
  induction t with
  | nil => intro p par _; rw [findFrom]; simp [ptr, RB.findLoc, locPtr]
  | node c l x r ihl ihr =>
    intro p par hr
    obtain ⟨w, e1, _, _⟩ := hr.1.load
    rw [findFrom]
    rw [if_neg (by exact hr.1.1)]
    simp only [ptr_node, Option.bind_eq_bind, e1, Option.bind_some, RB.findLoc, onData]
    by_cases h1 : cmp k x.2 < 0
    · simp only [h1, if_true]; exact ihl _ _ hr.2.1
    · by_cases h2 : cmp k x.2 > 0
      · simp only [h1, h2, if_true, if_false]; exact ihr _ _ hr.2.2
      · simp only [h1, h2, if_false]; rfl

/-- `rbtree_find` -/
theorem find_refines (cmp : κ → δ → Int) (k : κ) {t : Tree (Ptr × δ)} (hi : Is h t) : find cmp k h = some (locPtr (RB.find (onData cmp) k t)) := by
  unfold find RB.find
  rw [hi.1]
  exact findFrom_refines cmp k t [] 0 hi.2.1

theorem findCoverFrom_refines (cmp : κ → δ → Int) (k : κ) (t : Tree (Ptr × δ)) : ∀ (p : Path (Ptr × δ)) (root : Tree (Ptr × δ)), zip p t = root → Is h root →
    findCoverFrom cmp k h (ptr t) = some (locPtr (RB.findCoverLoc (onData cmp) k root t p)) := by
  induction t with
  | nil => intro p root _ _; rw [findCoverFrom]; simp [ptr, RB.findCoverLoc, locPtr]
  | node c l x r ihl ihr =>
    intro p root hz hi
    subst hz
    obtain ⟨w, e1, _, _⟩ := hi.load
    rw [findCoverFrom]
    rw [if_neg (by exact hi.z.2.1.1.1)]
    simp only [ptr_node, Option.bind_eq_bind, e1, Option.bind_some]
    rw [RB.findCoverLoc.eq_def]
    simp only [onData]
    by_cases h1 : cmp k x.2 < 0
    · simp only [h1, if_true]
      cases l with
      | nil =>
        have hp := prev_refines (z := ⟨p, c, .nil, x, r⟩) hi
        simp only [ptr, if_true]
        simp only at hp
        rw [hp]
        simp only [Option.bind_some]
        cases hq : RB.prev ⟨p, c, .nil, x, r⟩ with
        | none => simp only [locPtr_none, if_true]; exact last_refines hi
        | some z =>
          have h0 : z.x.1 ≠ 0 := by
            have h1 := RB.prev_ok ⟨p, c, .nil, x, r⟩
            rw [hq] at h1
            have hi2 : Is h z.root := by rw [h1.1]; exact hi
            exact (Is.z (p := z.path) (t := z.tree) (h := h) (by exact hi2)).2.1.1.1
          simp only [locPtr_some, h0, if_false]
      | node lc ll lx lr =>
        rw [if_neg (by exact hi.z.2.1.2.1.1.1)]
        exact ihl (.left c x r :: p) _ rfl (by exact hi)
    · by_cases h2 : cmp k x.2 > 0
      · simp only [h1, h2, if_true, if_false]
        cases r with
        | nil => simp [ptr, locPtr]
        | node rc rl rx rr =>
          rw [if_neg (by exact hi.z.2.1.2.2.1.1)]
          exact ihr (.right c l x :: p) _ rfl (by exact hi)
      · simp only [h1, h2, if_false]; rfl

/-- `rbtree_find_cover` -/
theorem findCover_refines (cmp : κ → δ → Int) (k : κ) {t : Tree (Ptr × δ)} (hi : Is h t) : findCover cmp k h = some (locPtr (RB.findCover (onData cmp) k t)) := by
  unfold findCover RB.findCover
  rw [hi.1]
  exact findCoverFrom_refines cmp k t [] t rfl hi

/-! ## The search of `rbtree_insert` -/

/-- the search loop on the tree: a node with the key, or the place of the new node -/
def descend (cmp : κ → Ptr × δ → Int) (k : κ) : Tree (Ptr × δ) → Path (Ptr × δ) → Ptr × δ ⊕ Path (Ptr × δ)
  | .nil, p => .inr p
  | .node c l x r, p =>
    if cmp k x < 0 then descend cmp k l (.left c x r :: p)
    else if cmp k x > 0 then descend cmp k r (.right c l x :: p)
    else .inl x

/-- the link word of a location -/
def linkOf : Path (Ptr × δ) → Link
  | [] => .root
  | .left _ x _ :: _ => .left x.1
  | .right _ _ x :: _ => .right x.1

theorem linkOf_read {t : Tree (Ptr × δ)} (hi : Is h (zip p t)) : (linkOf p).read h = some (ptr t) := by
  cases p with
  | nil => exact congrArg some hi.1
  | cons f p =>
    cases f with
    | left c x r => obtain ⟨w, e, _⟩ := hi.z.1.1.load; simp [linkOf, Link.read, e]
    | right c l x => obtain ⟨w, e, _⟩ := hi.z.1.1.load; simp [linkOf, Link.read, e]

theorem insertLoc_descend (cmp : κ → Ptr × δ → Int) (k : κ) (a : Ptr × δ) (root t : Tree (Ptr × δ)) : ∀ p, RB.insertLoc cmp k a root t p =
    match descend cmp k t p with
    | .inl x => some ⟨x, false, root⟩
    | .inr p => (match RB.insertColor (.node .red .nil a .nil) p with
      | none => none
      | some t => some ⟨a, true, t⟩) := by
  induction t with
  | nil => intro p; simp only [RB.insertLoc, descend]; cases RB.insertColor (.node .red .nil a .nil) p <;> rfl
  | node c l x r ihl ihr =>
    intro p
    simp only [RB.insertLoc, descend]
    split
    · exact ihl _
    · split
      · exact ihr _
      · rfl

theorem descend_zip (cmp : κ → Ptr × δ → Int) (k : κ) (t : Tree (Ptr × δ)) : ∀ p q, descend cmp k t p = .inr q → zip q .nil = zip p t := by
  induction t with
  | nil => intro p q he; simp only [descend, Sum.inr.injEq] at he; subst he; rfl
  | node c l x r ihl ihr =>
    intro p q he
    simp only [descend] at he
    split at he
    · exact ihl _ _ he
    · split at he
      · exact ihr _ _ he
      · cases he

theorem insertSearch_refines (cmp : κ → δ → Int) (k : κ) (t : Tree (Ptr × δ)) : ∀ p, Is h (zip p t) →
    insertSearch cmp k h (linkOf p) (top p) = some (match descend (onData cmp) k t p with
      | .inl x => .inl x.1
      | .inr q => .inr (linkOf q, top q)) := by
  induction t with
  | nil =>
    intro p hi
    rw [insertSearch]
    simp only [Option.bind_eq_bind, linkOf_read hi, Option.bind_some, ptr, if_true, descend]
  | node c l x r ihl ihr =>
    intro p hi
    obtain ⟨w, e1, _, _⟩ := hi.load
    rw [insertSearch]
    simp only [Option.bind_eq_bind, linkOf_read hi, Option.bind_some, ptr_node]
    rw [if_neg (by exact hi.z.2.1.1.1)]
    simp only [e1, Option.bind_some, descend, onData]
    by_cases h1 : cmp k x.2 < 0
    · simp only [h1, if_true]; exact ihl (.left c x r :: p) (by exact hi)
    · by_cases h2 : cmp k x.2 > 0
      · simp only [h1, h2, if_true, if_false]; exact ihr (.right c l x :: p) (by exact hi)
      · simp only [h1, h2, if_false]

end Kasync.RBHeap
