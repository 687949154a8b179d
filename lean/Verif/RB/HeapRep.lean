import Verif.RB.Heap

/-!
# When a heap represents a tree

`Is h t`: the memory reachable from `root->rb_node` is exactly the tree `t` (payload: address and data of each node), all child links, parent links and colours right, no two nodes at one address.
-/

namespace Kasync.RBHeap
open Kasync.RB (Color Tree Frame Path zip)

variable {δ κ : Type}

/-! ## The packed word -/

/-- nodes are allocated at multiples of four -/
def Aligned (p : Ptr) : Prop := p &&& 3#64 = 0#64

theorem aligned_bit {p : Ptr} (h : Aligned p) (i : Nat) (hi : i < 64) : (p[i] && (3#64)[i]) = false := by
  have := congrArg (fun x : BitVec 64 => x[i]) h
  simpa using this

theorem aligned_zero : Aligned 0#64 := by unfold Aligned; decide

theorem one_three (i : Nat) (hi : i < 64) : (1#64)[i] = true → (3#64)[i] = true := by
  have h : (1#64 &&& 3#64 : BitVec 64) = 1#64 := by decide
  have := congrArg (fun x : BitVec 64 => x[i]) h
  simp only [BitVec.getElem_and] at this
  intro h1; rw [h1] at this; simpa using this

theorem parent_setParent (w : BitVec 64) {p : Ptr} (hp : Aligned p) : rbParent (setParentW w p) = p := by
  unfold rbParent setParentW
  ext i hi
  have := aligned_bit hp i hi
  simp only [BitVec.getElem_and, BitVec.getElem_or, BitVec.getElem_not]
  revert this
  cases w[i] <;> cases p[i] <;> cases (3#64)[i] <;> simp

theorem color_eq (w v : BitVec 64) (h : w &&& 1#64 = v &&& 1#64) : rbColor w = rbColor v := by unfold rbColor; rw [h]

theorem color_setParent (w : BitVec 64) {p : Ptr} (hp : Aligned p) : rbColor (setParentW w p) = rbColor w := by
  apply color_eq
  unfold setParentW
  ext i hi
  have := aligned_bit hp i hi
  have h1 := one_three i hi
  simp only [BitVec.getElem_and, BitVec.getElem_or]
  revert this h1
  cases w[i] <;> cases p[i] <;> cases (3#64)[i] <;> cases (1#64)[i] <;> simp

theorem parent_setBlack (w : BitVec 64) : rbParent (setBlackW w) = rbParent w := by
  unfold rbParent setBlackW
  ext i hi
  have h1 := one_three i hi
  simp only [BitVec.getElem_and, BitVec.getElem_or, BitVec.getElem_not]
  revert h1
  cases w[i] <;> cases (3#64)[i] <;> cases (1#64)[i] <;> simp

theorem parent_setRed (w : BitVec 64) : rbParent (setRedW w) = rbParent w := by
  unfold rbParent setRedW
  ext i hi
  have h1 := one_three i hi
  simp only [BitVec.getElem_and, BitVec.getElem_not]
  revert h1
  cases w[i] <;> cases (3#64)[i] <;> cases (1#64)[i] <;> simp

theorem color_setBlack (w : BitVec 64) : rbColor (setBlackW w) = .black := by
  unfold rbColor setBlackW
  rw [if_neg]
  intro h
  have := congrArg (fun x : BitVec 64 => x[0]) h
  simp at this

theorem color_setRed (w : BitVec 64) : rbColor (setRedW w) = .red := by
  unfold rbColor setRedW
  rw [if_pos]
  ext i hi
  simp only [BitVec.getElem_and, BitVec.getElem_not]
  cases w[i] <;> cases (1#64)[i] <;> simp

theorem setColor_eq (w : BitVec 64) (c : Color) : setColorW w c = (match c with | .red => setRedW w | .black => setBlackW w) := by
  unfold setColorW setRedW setBlackW
  cases c
  · simp [Color.num]
  · simp only [Color.num]
    ext i hi
    simp only [BitVec.getElem_and, BitVec.getElem_or, BitVec.getElem_not]
    cases w[i] <;> cases (1#64)[i] <;> rfl

theorem parent_setColor (w : BitVec 64) (c : Color) : rbParent (setColorW w c) = rbParent w := by
  rw [setColor_eq]; cases c
  · exact parent_setRed w
  · exact parent_setBlack w

theorem color_setColor (w : BitVec 64) (c : Color) : rbColor (setColorW w c) = c := by
  rw [setColor_eq]; cases c
  · exact color_setRed w
  · exact color_setBlack w

theorem parent_aligned {p : Ptr} (hp : Aligned p) : rbParent p = p := by
  unfold rbParent
  ext i hi
  have := aligned_bit hp i hi
  simp only [BitVec.getElem_and, BitVec.getElem_not]
  revert this
  cases p[i] <;> cases (3#64)[i] <;> simp

theorem color_aligned {p : Ptr} (hp : Aligned p) : rbColor p = .red := by
  unfold rbColor
  rw [if_pos]
  ext i hi
  have := aligned_bit hp i hi
  have h1 := one_three i hi
  simp only [BitVec.getElem_and]
  revert this h1
  cases p[i] <;> cases (3#64)[i] <;> cases (1#64)[i] <;> simp

/-! ## Representation -/

/-- the pointer to a tree -/
def ptr : Tree (Ptr × δ) → Ptr
  | .nil => 0
  | .node _ _ x _ => x.1

/-- the addresses of the nodes of a tree, in order -/
def addrs (t : Tree (Ptr × δ)) : List Ptr := t.inorder.map Prod.fst

/-- the parent of a location -/
def top : Path (Ptr × δ) → Ptr
  | [] => 0
  | .left _ x _ :: _ => x.1
  | .right _ _ x :: _ => x.1

/-- the addresses of the nodes around a location -/
def pathAddrs : Path (Ptr × δ) → List Ptr
  | [] => []
  | .left _ x r :: p => x.1 :: (addrs r ++ pathAddrs p)
  | .right _ l x :: p => x.1 :: (addrs l ++ pathAddrs p)

/-- at address `a` there is a node with this parent, colour, children and data -/
def Cell (h : Heap δ) (a par : Ptr) (c : Color) (l r : Ptr) (d : δ) : Prop :=
  a ≠ 0 ∧ Aligned a ∧ ∃ w, h.mem a = some ⟨w, l, r, d⟩ ∧ rbParent w = par ∧ rbColor w = c

/-- the subtree `t`, whose root has the parent `par`, is in memory -/
def Rep (h : Heap δ) (par : Ptr) : Tree (Ptr × δ) → Prop
  | .nil => True
  | .node c l x r => Cell h x.1 par c (ptr l) (ptr r) x.2 ∧ Rep h x.1 l ∧ Rep h x.1 r

/-- the surroundings `p` of a location are in memory, `hole` being linked at the location -/
def Ctx (h : Heap δ) (hole : Ptr) : Path (Ptr × δ) → Prop
  | [] => h.root = hole
  | .left c x r :: p => Cell h x.1 (top p) c hole (ptr r) x.2 ∧ Rep h x.1 r ∧ Ctx h x.1 p
  | .right c l x :: p => Cell h x.1 (top p) c (ptr l) hole x.2 ∧ Rep h x.1 l ∧ Ctx h x.1 p

/-- The heap represents the tree. -/
def Is (h : Heap δ) (t : Tree (Ptr × δ)) : Prop := h.root = ptr t ∧ Rep h 0 t ∧ (addrs t).Nodup

theorem addrs_nil : addrs (.nil : Tree (Ptr × δ)) = [] := rfl
theorem addrs_node (c : Color) (l r : Tree (Ptr × δ)) (x : Ptr × δ) : addrs (.node c l x r) = addrs l ++ x.1 :: addrs r := by
  simp [addrs, Tree.inorder]

theorem Cell.frame {h h' : Heap δ} {a par : Ptr} {c : Color} {l r : Ptr} {d : δ} (hc : Cell h a par c l r d) (e : h'.mem a = h.mem a) :
    Cell h' a par c l r d := by unfold Cell at *; rw [e]; exact hc

theorem Rep.frame {h h' : Heap δ} {t : Tree (Ptr × δ)} : ∀ {par : Ptr}, Rep h par t → (∀ a ∈ addrs t, h'.mem a = h.mem a) → Rep h' par t := by
  induction t with
  | nil => intros; trivial
  | node c l x r ihl ihr =>
    intro par hr e
    rw [addrs_node] at e
    exact ⟨hr.1.frame (e _ (by simp)), ihl hr.2.1 (fun a ha => e a (by simp [ha])), ihr hr.2.2 (fun a ha => e a (by simp [ha]))⟩

theorem Ctx.frame {h h' : Heap δ} {p : Path (Ptr × δ)} : ∀ {hole : Ptr}, Ctx h hole p → h'.root = h.root → (∀ a ∈ pathAddrs p, h'.mem a = h.mem a) → Ctx h' hole p := by
  induction p with
  | nil => intro hole hc e _; unfold Ctx at *; rw [e]; exact hc
  | cons f p ih =>
    intro hole hc er e
    cases f with
    | left c x r =>
      simp only [pathAddrs] at e
      exact ⟨hc.1.frame (e _ (by simp)), hc.2.1.frame (fun a ha => e a (by simp [ha])), ih hc.2.2 er (fun a ha => e a (by simp [ha]))⟩
    | right c l x =>
      simp only [pathAddrs] at e
      exact ⟨hc.1.frame (e _ (by simp)), hc.2.1.frame (fun a ha => e a (by simp [ha])), ih hc.2.2 er (fun a ha => e a (by simp [ha]))⟩

theorem Rep.ptr_mem {t : Tree (Ptr × δ)} (hne : t ≠ .nil) : ptr t ∈ addrs t := by
  cases t with
  | nil => exact absurd rfl hne
  | node c l x r => rw [addrs_node]; simp [ptr]

theorem Rep.ne_zero {h : Heap δ} {t : Tree (Ptr × δ)} : ∀ {par : Ptr}, Rep h par t → ∀ a ∈ addrs t, a ≠ 0 ∧ Aligned a := by
  induction t with
  | nil => intro par _ a ha; simp [addrs, Tree.inorder] at ha
  | node c l x r ihl ihr =>
    intro par hr a ha
    rw [addrs_node] at ha
    simp only [List.mem_append, List.mem_cons] at ha
    rcases ha with ha | ha | ha
    · exact ihl hr.2.1 a ha
    · subst ha; exact ⟨hr.1.1, hr.1.2.1⟩
    · exact ihr hr.2.2 a ha

theorem Rep.ptr_zero {h : Heap δ} {t : Tree (Ptr × δ)} {par : Ptr} (hr : Rep h par t) : ptr t = 0 ↔ t = .nil := by
  cases t with
  | nil => simp [ptr]
  | node c l x r => simp only [ptr, reduceCtorEq, iff_false]; exact hr.1.1

/-! ### Refocusing -/

/-- the heap represents `zip p t`, seen from the location -/
def IsZ (h : Heap δ) (p : Path (Ptr × δ)) (t : Tree (Ptr × δ)) : Prop :=
  Ctx h (ptr t) p ∧ Rep h (top p) t ∧ (pathAddrs p ++ addrs t).Nodup

theorem perm_left (x : Ptr) (a b p : List Ptr) : ((x :: (b ++ p)) ++ a).Perm (p ++ (a ++ x :: b)) := by
  have h1 : ((x :: (b ++ p)) ++ a).Perm (x :: (b ++ (p ++ a))) := by simp
  have h2 : (p ++ (a ++ x :: b)).Perm (x :: (b ++ (p ++ a))) := by
    rw [← List.append_assoc]
    exact List.perm_append_comm
  exact h1.trans h2.symm

theorem perm_right (x : Ptr) (a b p : List Ptr) : ((x :: (b ++ p)) ++ a).Perm (p ++ (b ++ x :: a)) := by
  have h2 : (p ++ (b ++ x :: a)).Perm ((x :: a) ++ (p ++ b)) := by
    rw [← List.append_assoc]
    exact List.perm_append_comm
  have h3 : ((x :: (b ++ p)) ++ a).Perm ((x :: a) ++ (p ++ b)) := by
    simp only [List.cons_append]
    refine List.Perm.cons _ ?_
    exact (List.perm_append_comm).trans (List.Perm.append_left _ List.perm_append_comm)
  exact h3.trans h2.symm

theorem isZ_iff (h : Heap δ) (p : Path (Ptr × δ)) : ∀ t, IsZ h p t ↔ Is h (zip p t) := by
  induction p with
  | nil => intro t; simp [IsZ, Is, zip, Ctx, top, pathAddrs]
  | cons f p ih =>
    intro t
    cases f with
    | left c x r =>
      rw [zip, ← ih]
      unfold IsZ
      simp only [Frame.plug, Ctx, Rep, ptr, pathAddrs, top, addrs_node]
      rw [(perm_left x.1 (addrs t) (addrs r) (pathAddrs p)).nodup_iff]
      constructor <;> rintro ⟨h1, h2, h3⟩ <;> grind
    | right c l x =>
      rw [zip, ← ih]
      unfold IsZ
      simp only [Frame.plug, Ctx, Rep, ptr, pathAddrs, top, addrs_node]
      rw [(perm_right x.1 (addrs t) (addrs l) (pathAddrs p)).nodup_iff]
      constructor <;> rintro ⟨h1, h2, h3⟩ <;> grind

/-! ### Elementary changes -/

theorem Cell.load {h : Heap δ} {a par : Ptr} {c : Color} {l r : Ptr} {d : δ} (hc : Cell h a par c l r d) :
    ∃ w, h.load a = some ⟨w, l, r, d⟩ ∧ rbParent w = par ∧ rbColor w = c := by
  obtain ⟨h0, _, w, h1, h2, h3⟩ := hc
  exact ⟨w, by unfold Heap.load; rw [if_neg h0, h1], h2, h3⟩

/-- `h'` differs from `h` at most at `a` -/
def Off (h h' : Heap δ) (a : Ptr) : Prop := h'.root = h.root ∧ ∀ b, b ≠ a → h'.mem b = h.mem b

theorem off_set (h : Heap δ) (a : Ptr) (n : Node δ) : Off h (h.set a n) a := ⟨rfl, fun b hb => by simp [Heap.set, hb]⟩

theorem modify_some {h : Heap δ} {a : Ptr} {n : Node δ} (hl : h.load a = some n) (f : Node δ → Node δ) : h.modify a f = some (h.set a (f n)) := by
  unfold Heap.modify; rw [hl]

theorem set_mem (h : Heap δ) (a : Ptr) (n : Node δ) : (h.set a n).mem a = some n := by simp [Heap.set]

variable {h : Heap δ} {a par : Ptr} {c : Color} {l r : Ptr} {d : δ}

theorem Cell.setLeft (hc : Cell h a par c l r d) (q : Ptr) : ∃ h', setLeft h a q = some h' ∧ Cell h' a par c q r d ∧ Off h h' a := by
  obtain ⟨w, hl, h2, h3⟩ := hc.load
  exact ⟨_, modify_some hl _, ⟨hc.1, hc.2.1, w, set_mem _ _ _, h2, h3⟩, off_set _ _ _⟩

theorem Cell.setRight (hc : Cell h a par c l r d) (q : Ptr) : ∃ h', setRight h a q = some h' ∧ Cell h' a par c l q d ∧ Off h h' a := by
  obtain ⟨w, hl, h2, h3⟩ := hc.load
  exact ⟨_, modify_some hl _, ⟨hc.1, hc.2.1, w, set_mem _ _ _, h2, h3⟩, off_set _ _ _⟩

theorem Cell.setParent (hc : Cell h a par c l r d) {q : Ptr} (hq : Aligned q) : ∃ h', setParent h a q = some h' ∧ Cell h' a q c l r d ∧ Off h h' a := by
  obtain ⟨w, hl, h2, h3⟩ := hc.load
  exact ⟨_, modify_some hl _, ⟨hc.1, hc.2.1, _, set_mem _ _ _, parent_setParent w hq, by rw [color_setParent w hq, h3]⟩, off_set _ _ _⟩

theorem Cell.setBlack (hc : Cell h a par c l r d) : ∃ h', setBlack h a = some h' ∧ Cell h' a par .black l r d ∧ Off h h' a := by
  obtain ⟨w, hl, h2, h3⟩ := hc.load
  exact ⟨_, modify_some hl _, ⟨hc.1, hc.2.1, _, set_mem _ _ _, by rw [parent_setBlack, h2], color_setBlack w⟩, off_set _ _ _⟩

theorem Cell.setRed (hc : Cell h a par c l r d) : ∃ h', setRed h a = some h' ∧ Cell h' a par .red l r d ∧ Off h h' a := by
  obtain ⟨w, hl, h2, h3⟩ := hc.load
  exact ⟨_, modify_some hl _, ⟨hc.1, hc.2.1, _, set_mem _ _ _, by rw [parent_setRed, h2], color_setRed w⟩, off_set _ _ _⟩

theorem Cell.setColor (hc : Cell h a par c l r d) (c' : Color) : ∃ h', setColor h a c' = some h' ∧ Cell h' a par c' l r d ∧ Off h h' a := by
  obtain ⟨w, hl, h2, h3⟩ := hc.load
  exact ⟨_, modify_some hl _, ⟨hc.1, hc.2.1, _, set_mem _ _ _, by rw [parent_setColor, h2], color_setColor w c'⟩, off_set _ _ _⟩

/-- `if (p) rb_set_parent(p, q)` on the root of a subtree -/
theorem Rep.reparent {h : Heap δ} {t : Tree (Ptr × δ)} {par : Ptr} (hr : Rep h par t) (hn : (addrs t).Nodup) {q : Ptr} (hq : Aligned q) :
    ∃ h', setParentIf h (ptr t) q = some h' ∧ Rep h' q t ∧ h'.root = h.root ∧ ∀ b, b ∉ addrs t → h'.mem b = h.mem b := by
  cases t with
  | nil => exact ⟨h, by simp [setParentIf, ptr], trivial, rfl, fun _ _ => rfl⟩
  | node c l x r =>
    obtain ⟨h', e1, e2, e3⟩ := hr.1.setParent hq
    rw [addrs_node] at hn ⊢
    have hn' := hn
    simp only [List.nodup_append, List.nodup_cons, List.mem_cons] at hn'
    refine ⟨h', by unfold setParentIf; rw [if_pos (by exact hr.1.1)]; exact e1, ⟨e2, ?_, ?_⟩, e3.1, fun b hb => e3.2 b ?_⟩
    · exact hr.2.1.frame (fun b hb => e3.2 b (by grind))
    · exact hr.2.2.frame (fun b hb => e3.2 b (by grind))
    · grind

/-- changing the link to a location -/
theorem Ctx.relink {h : Heap δ} {hole : Ptr} {p : Path (Ptr × δ)} (hc : Ctx h hole p) (h0 : hole ≠ 0) (hp : hole ∉ pathAddrs p) (hn : (pathAddrs p).Nodup) (new : Ptr) :
    ∃ h', relink h (top p) hole new = some h' ∧ relinkR h (top p) hole new = some h' ∧ Ctx h' new p ∧ ∀ b, b ∉ pathAddrs p → h'.mem b = h.mem b := by
  cases p with
  | nil =>
    exact ⟨{ h with root := new }, by simp [RBHeap.relink, top], by simp [RBHeap.relinkR, top], rfl, fun _ _ => rfl⟩
  | cons f p =>
    cases f with
    | left c x r =>
      simp only [pathAddrs, List.mem_cons, List.mem_append, not_or, List.nodup_cons, List.nodup_append] at hp hn
      obtain ⟨w, hl, _, _⟩ := hc.1.load
      obtain ⟨h', e1, e2, e3⟩ := hc.1.setLeft new
      have hne : hole ≠ ptr r := by
        intro e
        cases r with
        | nil => exact h0 e
        | node _ _ _ _ => exact hp.2.1 (e ▸ Rep.ptr_mem (by simp))
      refine ⟨h', ?_, ?_, ⟨e2, ?_, ?_⟩, ?_⟩
      · unfold RBHeap.relink; rw [if_pos (by exact hc.1.1)]; simp only [top, hl]; simp [e1]
      · unfold RBHeap.relinkR; rw [if_pos (by exact hc.1.1)]; simp only [top, hl]; simp [e1, hne]
      · exact hc.2.1.frame (fun b hb => e3.2 b (by grind))
      · exact hc.2.2.frame e3.1 (fun b hb => e3.2 b (by grind))
      · intro b hb; exact e3.2 b (by simp only [pathAddrs, List.mem_cons, not_or] at hb; exact hb.1)
    | right c l x =>
      simp only [pathAddrs, List.mem_cons, List.mem_append, not_or, List.nodup_cons, List.nodup_append] at hp hn
      obtain ⟨w, hl, _, _⟩ := hc.1.load
      obtain ⟨h', e1, e2, e3⟩ := hc.1.setRight new
      have hne : ptr l ≠ hole := by
        intro e
        cases l with
        | nil => exact h0 e.symm
        | node _ _ _ _ => exact hp.2.1 (e ▸ Rep.ptr_mem (by simp))
      refine ⟨h', ?_, ?_, ⟨e2, ?_, ?_⟩, ?_⟩
      · unfold RBHeap.relink; rw [if_pos (by exact hc.1.1)]; simp only [top, hl]; simp [e1, hne]
      · unfold RBHeap.relinkR; rw [if_pos (by exact hc.1.1)]; simp only [top, hl]; simp [e1]
      · exact hc.2.1.frame (fun b hb => e3.2 b (by grind))
      · exact hc.2.2.frame e3.1 (fun b hb => e3.2 b (by grind))
      · intro b hb; exact e3.2 b (by simp only [pathAddrs, List.mem_cons, not_or] at hb; exact hb.1)

end Kasync.RBHeap
