import Verif.RB.Lemmas

/-! Helper lemmas: searching, traversal, iteration. -/

namespace Kasync.RB

variable {α κ : Type}

/-- nodes before / after a location in in-order -/
def Loc.pre (z : Loc α) : List α := before z.path ++ z.l.inorder
def Loc.post (z : Loc α) : List α := z.r.inorder ++ after z.path

theorem Loc.inorder_root (z : Loc α) : z.root.inorder = z.pre ++ z.x :: z.post := by
  simp [Loc.root, Loc.tree, inorder_zip, Tree.inorder, Loc.pre, Loc.post]

theorem leftmost_ok (t : Tree α) (p : Path α) (h : t ≠ .nil) :
    ∃ z, leftmost t p = some z ∧ z.root = zip p t ∧ z.pre = before p ∧ z.l = .nil := by
  fun_induction leftmost t p with
  | case1 => exact absurd rfl h
  | case2 c x r p => exact ⟨_, rfl, rfl, by simp [Loc.pre, Tree.inorder], rfl⟩
  | case3 c lc ll lx lr x r p ih =>
    obtain ⟨z, h1, h2, h3, h4⟩ := ih (by simp)
    exact ⟨z, h1, by rw [h2]; rfl, by rw [h3]; rfl, h4⟩

theorem rightmost_ok (t : Tree α) (p : Path α) (h : t ≠ .nil) :
    ∃ z, rightmost t p = some z ∧ z.root = zip p t ∧ z.post = after p ∧ z.r = .nil := by
  fun_induction rightmost t p with
  | case1 => exact absurd rfl h
  | case2 c l x p => exact ⟨_, rfl, rfl, by simp [Loc.post, Tree.inorder], rfl⟩
  | case3 c l x rc rl rx rr p ih =>
    obtain ⟨z, h1, h2, h3, h4⟩ := ih (by simp)
    exact ⟨z, h1, by rw [h2]; rfl, by rw [h3]; rfl, h4⟩

theorem climbRight_ok (t : Tree α) (p : Path α) :
    match climbRight t p with
    | none => after p = []
    | some z => z.root = zip p t ∧ z.pre = before p ++ t.inorder ∧ after p = z.x :: z.post := by
  induction p generalizing t with
  | nil => simp [climbRight, after]
  | cons f p ih =>
    cases f with
    | left c x r => simp [climbRight, Loc.root, Loc.tree, zip, Frame.plug, Loc.pre, before, after, Loc.post]
    | right c l x =>
      have := ih (.node c l x t)
      simp only [climbRight]
      split
      · rename_i h; rw [h] at this; simpa [after] using this
      · rename_i z h; rw [h] at this
        simpa [zip, Frame.plug, before, after, Tree.inorder] using this

theorem climbLeft_ok (t : Tree α) (p : Path α) :
    match climbLeft t p with
    | none => before p = []
    | some z => z.root = zip p t ∧ z.post = t.inorder ++ after p ∧ before p = z.pre ++ [z.x] := by
  induction p generalizing t with
  | nil => simp [climbLeft, before]
  | cons f p ih =>
    cases f with
    | right c l x => simp [climbLeft, Loc.root, Loc.tree, zip, Frame.plug, Loc.pre, before, after, Loc.post]
    | left c x r =>
      have := ih (.node c t x r)
      simp only [climbLeft]
      split
      · rename_i h; rw [h] at this; simpa [before] using this
      · rename_i z h; rw [h] at this
        simpa [zip, Frame.plug, before, after, Tree.inorder] using this

/-- what `rb_next` returns -/
theorem next_ok (z : Loc α) :
    match next z with
    | none => z.post = []
    | some z' => z'.root = z.root ∧ z'.pre = z.pre ++ [z.x] ∧ z.post = z'.x :: z'.post := by
  obtain ⟨p, c, l, x, r⟩ := z
  unfold next
  cases r with
  | nil =>
    have := climbRight_ok (.node c l x .nil) p
    simp only [Loc.tree]
    split
    · rename_i h; rw [h] at this; simpa [Loc.post, Tree.inorder] using this
    · rename_i z' h; rw [h] at this
      simpa [Loc.root, Loc.tree, Loc.pre, Loc.post, Tree.inorder] using this
  | node rc rl rx rr =>
    obtain ⟨z', h1, h2, h3, h4⟩ := leftmost_ok (.node rc rl rx rr) (.right c l x :: p) (by simp)
    simp only [h1]
    have hr : z'.root = (Loc.mk p c l x (.node rc rl rx rr)).root := by rw [h2]; rfl
    refine ⟨hr, by rw [h3]; simp [before, Loc.pre], ?_⟩
    have e1 := Loc.inorder_root z'
    rw [hr, Loc.inorder_root, h3] at e1
    simpa [before, Loc.pre] using e1

theorem prev_ok (z : Loc α) :
    match prev z with
    | none => z.pre = []
    | some z' => z'.root = z.root ∧ z'.post = z.x :: z.post ∧ z.pre = z'.pre ++ [z'.x] := by
  obtain ⟨p, c, l, x, r⟩ := z
  unfold prev
  cases l with
  | nil =>
    have := climbLeft_ok (.node c .nil x r) p
    simp only [Loc.tree]
    split
    · rename_i h; rw [h] at this; simpa [Loc.pre, Tree.inorder] using this
    · rename_i z' h; rw [h] at this
      simpa [Loc.root, Loc.tree, Loc.pre, Loc.post, Tree.inorder] using this
  | node lc ll lx lr =>
    obtain ⟨z', h1, h2, h3, h4⟩ := rightmost_ok (.node lc ll lx lr) (.left c x r :: p) (by simp)
    simp only [h1]
    have hr : z'.root = (Loc.mk p c (.node lc ll lx lr) x r).root := by rw [h2]; rfl
    refine ⟨hr, by rw [h3]; simp [after, Loc.post], ?_⟩
    have e1 := Loc.inorder_root z'
    rw [hr, Loc.inorder_root, h3] at e1
    have e2 : (Loc.mk p c (.node lc ll lx lr) x r).pre ++ (x :: (r.inorder ++ after p)) =
        (z'.pre ++ [z'.x]) ++ (x :: (r.inorder ++ after p)) := by
      simpa [after, Loc.post] using e1
    exact List.append_cancel_right e2

theorem first_ok (t : Tree α) :
    match first t with
    | none => t = .nil
    | some z => z.root = t ∧ z.pre = [] := by
  cases t with
  | nil => simp [first, leftmost]
  | node c l x r =>
    obtain ⟨z, h1, h2, h3, h4⟩ := leftmost_ok (.node c l x r) [] (by simp)
    simp only [first, h1]
    exact ⟨h2, h3⟩

theorem last_ok (t : Tree α) :
    match last t with
    | none => t = .nil
    | some z => z.root = t ∧ z.post = [] := by
  cases t with
  | nil => simp [last, rightmost]
  | node c l x r =>
    obtain ⟨z, h1, h2, h3, h4⟩ := rightmost_ok (.node c l x r) [] (by simp)
    simp only [last, h1]
    exact ⟨h2, h3⟩

theorem walkNext_ok (fuel : Nat) (z : Loc α) (h : z.post.length < fuel) :
    walkNext fuel (some z) = some (z.x :: z.post) := by
  induction fuel generalizing z with
  | zero => omega
  | succ n ih =>
    have hn := next_ok z
    simp only [walkNext]
    cases hx : next z with
    | none => rw [hx] at hn; simp only at hn; cases n <;> simp [walkNext, hn]
    | some z' =>
      rw [hx] at hn
      obtain ⟨_, _, h3⟩ := hn
      rw [ih z' (by rw [h3] at h; simp at h; omega), h3]; rfl

theorem walkPrev_ok (fuel : Nat) (z : Loc α) (h : z.pre.length < fuel) :
    walkPrev fuel (some z) = some (z.x :: z.pre.reverse) := by
  induction fuel generalizing z with
  | zero => omega
  | succ n ih =>
    have hn := prev_ok z
    simp only [walkPrev]
    cases hx : prev z with
    | none => rw [hx] at hn; simp only at hn; cases n <;> simp [walkPrev, hn]
    | some z' =>
      rw [hx] at hn
      obtain ⟨_, _, h3⟩ := hn
      rw [ih z' (by rw [h3] at h; simp at h; omega), h3]; simp

theorem size_eq_length (t : Tree α) : t.size = t.inorder.length := by
  induction t with
  | nil => rfl
  | node c l x r h1 h2 => simp [Tree.size, Tree.inorder, h1, h2]; omega

/-! searching -/

section
variable {cmp : κ → κ → Int} {key : α → κ}

theorem cmp_zero_of (hc : IsOrder cmp) {a b : κ} (h1 : ¬ cmp a b < 0) (h2 : ¬ cmp a b > 0) : a = b :=
  (hc.eq_iff a b).1 (by omega)

theorem cmp_self (hc : IsOrder cmp) (a : κ) : cmp a a = 0 := (hc.eq_iff a a).2 rfl

theorem findLoc_some (hc : IsOrder cmp) {k : κ} {t : Tree α} {p : Path α} {z : Loc α}
    (h : findLoc (fun k x => cmp k (key x)) k t p = some z) : z.root = zip p t ∧ key z.x = k := by
  induction t generalizing p with
  | nil => simp [findLoc] at h
  | node c l x r h1 h2 =>
    unfold findLoc at h
    split at h
    · exact h1 h
    · split at h
      · exact h2 h
      · cases h
        exact ⟨rfl, (cmp_zero_of hc (by assumption) (by assumption)).symm⟩

theorem sorted_node {c : Color} {l r : Tree α} {x : α} (h : Sorted cmp key (Tree.node c l x r).inorder) :
    Sorted cmp key l.inorder ∧ Sorted cmp key r.inorder ∧ (∀ y ∈ l.inorder, cmp (key y) (key x) < 0) ∧
    (∀ y ∈ r.inorder, cmp (key x) (key y) < 0) := by
  simp only [Sorted, Tree.inorder, List.pairwise_append, List.pairwise_cons] at *
  obtain ⟨h1, ⟨h2, h3⟩, h4⟩ := h
  exact ⟨h1, h3, fun y hy => h4 y hy x (by simp), h2⟩

theorem findLoc_none (hc : IsOrder cmp) {k : κ} {t : Tree α} {p : Path α}
    (hs : Sorted cmp key t.inorder)
    (h : findLoc (fun k x => cmp k (key x)) k t p = none) : ∀ y ∈ t.inorder, key y ≠ k := by
  induction t generalizing p with
  | nil => simp [Tree.inorder]
  | node c l x r h1 h2 =>
    obtain ⟨s1, s2, s3, s4⟩ := sorted_node hs
    unfold findLoc at h
    intro y hy he
    simp only [Tree.inorder, List.mem_append, List.mem_cons] at hy
    split at h
    · rename_i hlt
      rcases hy with hy | rfl | hy
      · exact h1 s1 h y hy he
      · rw [he, cmp_self hc] at hlt; omega
      · have := s4 y hy
        rw [he] at this
        have := (hc.anti _ _).1 this
        omega
    · split at h
      · rename_i hge hgt
        rcases hy with hy | rfl | hy
        · have := s3 y hy
          rw [he] at this
          omega
        · rw [he, cmp_self hc] at hgt; omega
        · exact h2 s2 h y hy he
      · simp at h

theorem insertLoc_ok (hc : IsOrder cmp) {k : κ} {a : α} {root t : Tree α} {p : Path α}
    (hz : root = zip p t) (hv : Valid root) (hs : Sorted cmp key root.inorder)
    (hb : ∀ y ∈ before p, cmp (key y) k < 0) (ha : ∀ y ∈ after p, cmp k (key y) < 0) :
    (∃ x, insertLoc (fun k x => cmp k (key x)) k a root t p = some ⟨x, false, root⟩ ∧
        x ∈ root.inorder ∧ key x = k) ∨
    (∃ t' l1 l2, insertLoc (fun k x => cmp k (key x)) k a root t p = some ⟨a, true, t'⟩ ∧ Valid t' ∧
        root.inorder = l1 ++ l2 ∧ t'.inorder = l1 ++ a :: l2 ∧
        (∀ y ∈ l1, cmp (key y) k < 0) ∧ (∀ y ∈ l2, cmp k (key y) < 0)) := by
  induction t generalizing p with
  | nil =>
    right
    obtain ⟨n, h1, h2, h3, h4⟩ := zip_inv (hz ▸ hv)
    obtain rfl : n = 0 := h2
    obtain ⟨t', e1, e2, e3⟩ := insertColor_ok (.node .red .nil a .nil) p 0 h1 (by simp [Tree.BH])
      (by simp [Tree.NoRR]) rfl
    refine ⟨t', before p, after p, by simp [insertLoc, e1], e2, ?_, ?_, hb, ha⟩
    · rw [hz, inorder_zip]; simp [Tree.inorder]
    · rw [e3, inorder_zip]; simp [Tree.inorder]
  | node c l x r h1 h2 =>
    have hs' : Sorted cmp key (before p ++ (Tree.node c l x r).inorder ++ after p) := by
      rw [hz, inorder_zip] at hs; exact hs
    have hst : Sorted cmp key (Tree.node c l x r).inorder := by
      unfold Sorted at *
      rw [List.pairwise_append, List.pairwise_append] at hs'
      exact hs'.1.2.1
    obtain ⟨s1, s2, s3, s4⟩ := sorted_node hst
    unfold insertLoc
    split
    · rename_i hlt
      refine h1 (p := .left c x r :: p) hz (by simpa [before] using hb) ?_
      simp only [after, List.cons_append, List.mem_cons, List.mem_append]
      rintro y (rfl | hy | hy)
      · exact hlt
      · exact hc.trans _ _ _ hlt (s4 y hy)
      · exact ha y hy
    · split
      · rename_i hge hgt
        refine h2 (p := .right c l x :: p) hz ?_ (by simpa [after] using ha)
        have hxk : cmp (key x) k < 0 := (hc.anti _ _).2 hgt
        simp only [before, List.mem_append, List.mem_singleton]
        rintro y ((hy | hy) | rfl)
        · exact hb y hy
        · exact hc.trans _ _ _ (s3 y hy) hxk
        · exact hxk
      · left
        refine ⟨x, rfl, ?_, (cmp_zero_of hc (by assumption) (by assumption)).symm⟩
        rw [hz, inorder_zip]; simp [Tree.inorder]

theorem find2_mem {k : κ} {r0 : Int} {t : Tree α} {ln : Option α} {x : α} {r : Int}
    (h : find2 (fun k x => cmp k (key x)) k r0 ln t = (some x, r)) (hn : ln = none ∨ (∃ w, ln = some w ∧ r0 = cmp k (key w))) :
    r = cmp k (key x) ∧ (x ∈ t.inorder ∨ ln = some x) := by
  induction t generalizing ln r0 with
  | nil =>
    simp only [find2, Prod.mk.injEq] at h
    obtain ⟨rfl, rfl⟩ := h
    rcases hn with hn | ⟨w, hw, rfl⟩
    · cases hn
    · cases hw; exact ⟨rfl, .inr rfl⟩
  | node c l y rr h1 h2 =>
    unfold find2 at h
    simp only [Tree.inorder, List.mem_append, List.mem_cons]
    split at h
    · obtain ⟨e1, e2⟩ := h1 h (.inr ⟨y, rfl, rfl⟩)
      refine ⟨e1, .inl ?_⟩
      rcases e2 with e2 | e2
      · exact .inl e2
      · cases e2; exact .inr (.inl rfl)
    · split at h
      · obtain ⟨e1, e2⟩ := h2 h (.inr ⟨y, rfl, rfl⟩)
        refine ⟨e1, .inl ?_⟩
        rcases e2 with e2 | e2
        · exact .inr (.inr e2)
        · cases e2; exact .inr (.inl rfl)
      · cases h; exact ⟨rfl, .inl (.inr (.inl rfl))⟩

/-- what `rbtree_find_cover` returns -/
theorem findCoverLoc_ok (hc : IsOrder cmp) {k : κ} {root t : Tree α} {p : Path α}
    (hz : root = zip p t) (ht : t ≠ .nil) (hs : Sorted cmp key root.inorder)
    (hb : ∀ y ∈ before p, cmp (key y) k < 0) (ha : ∀ y ∈ after p, cmp k (key y) < 0) :
    ∃ z, findCoverLoc (fun k x => cmp k (key x)) k root t p = some z ∧ z.root = root ∧
      ((cmp (key z.x) k ≤ 0 ∧ ∀ y ∈ z.post, cmp k (key y) < 0) ∨
       ((∀ y ∈ root.inorder, cmp k (key y) < 0) ∧ z.post = [])) := by
  induction t generalizing p with
  | nil => exact absurd rfl ht
  | node c l x r h1 h2 =>
    have hs' : Sorted cmp key (before p ++ (Tree.node c l x r).inorder ++ after p) := by
      rw [hz, inorder_zip] at hs; exact hs
    have hst : Sorted cmp key (Tree.node c l x r).inorder := by
      unfold Sorted at *
      rw [List.pairwise_append, List.pairwise_append] at hs'
      exact hs'.1.2.1
    obtain ⟨s1, s2, s3, s4⟩ := sorted_node hst
    unfold findCoverLoc
    split
    · rename_i hlt
      have hafter : ∀ y ∈ x :: r.inorder ++ after p, cmp k (key y) < 0 := by
        simp only [List.cons_append, List.mem_cons, List.mem_append]
        rintro y (rfl | hy | hy)
        · exact hlt
        · exact hc.trans _ _ _ hlt (s4 y hy)
        · exact ha y hy
      cases l with
      | nil =>
        have hp := prev_ok ⟨p, c, .nil, x, r⟩
        simp only
        split
        · rename_i hnone
          rw [hnone] at hp
          have hl := last_ok root
          split at hl
          · subst hl
            have := congrArg Tree.inorder hz
            simp [inorder_zip, Tree.inorder] at this
          · rename_i z hz'
            refine ⟨z, hz', hl.1, .inr ⟨?_, hl.2⟩⟩
            intro y hy
            rw [hz, inorder_zip] at hy
            simp only [Loc.pre, Tree.inorder, List.append_nil] at hp
            rw [hp] at hy
            exact hafter y (by simpa [Tree.inorder] using hy)
        · rename_i z hsome
          rw [hsome] at hp
          obtain ⟨p1, p2, p3⟩ := hp
          refine ⟨z, rfl, by rw [p1, hz]; rfl, .inl ⟨?_, ?_⟩⟩
          · have : z.x ∈ before p := by
              have : z.x ∈ z.pre ++ [z.x] := by simp
              rw [← p3] at this
              simpa [Loc.pre, Tree.inorder] using this
            have := hb _ this
            omega
          · rw [p2]; simpa [Loc.post] using hafter
      | node lc ll lx lr =>
        exact h1 (p := .left c x r :: p) hz (by simp) (by simpa [before] using hb)
          (by simpa [after] using hafter)
    · split
      · rename_i hge hgt
        have hxk : cmp (key x) k < 0 := (hc.anti _ _).2 hgt
        cases r with
        | nil =>
          refine ⟨_, rfl, hz.symm, .inl ⟨by simp only; omega, by simpa [Loc.post, Tree.inorder] using ha⟩⟩
        | node rc rl rx rr =>
          refine h2 (p := .right c l x :: p) hz (by simp) ?_ (by simpa [after] using ha)
          simp only [before, List.mem_append, List.mem_singleton]
          rintro y ((hy | hy) | rfl)
          · exact hb y hy
          · exact hc.trans _ _ _ (s3 y hy) hxk
          · exact hxk
      · rename_i g1 g2
        have he := cmp_zero_of hc g1 g2
        refine ⟨_, rfl, hz.symm, .inl ⟨by simp only; rw [← he, cmp_self hc]; omega, ?_⟩⟩
        simp only [Loc.post, List.mem_append]
        rintro y (hy | hy)
        · rw [he]; exact s4 y hy
        · exact ha y hy

end

/-! iteration with removal -/

theorem locate_none [DecidableEq α] {a : α} {t : Tree α} {p : Path α} (h : locate a t p = none) :
    a ∉ t.inorder := by
  induction t generalizing p with
  | nil => simp [Tree.inorder]
  | node c l x r h1 h2 =>
    unfold locate at h
    split at h
    · simp at h
    · rename_i hx
      cases h3 : locate a l (.left c x r :: p) with
      | some z => simp [h3] at h
      | none =>
        simp only [h3, Option.orElse_none] at h
        simp [Tree.inorder, h1 h3, h2 h, Ne.symm hx]

theorem locate_some [DecidableEq α] {a : α} {t : Tree α} {p : Path α} {z : Loc α} (h : locate a t p = some z) :
    z.root = zip p t ∧ z.x = a := by
  induction t generalizing p with
  | nil => simp [locate] at h
  | node c l x r h1 h2 =>
    unfold locate at h
    split at h
    · cases h; exact ⟨rfl, by assumption⟩
    · cases h3 : locate a l (.left c x r :: p) with
      | some z' =>
        simp only [h3, Option.orElse_some, Option.some.injEq] at h
        subst h; exact h1 h3
      | none =>
        simp only [h3, Option.orElse_none] at h
        exact h2 h

theorem nodup_split {a : α} {l1 l2 r1 r2 : List α} (hn : (l1 ++ a :: l2).Nodup)
    (h : l1 ++ a :: l2 = r1 ++ a :: r2) : l1 = r1 ∧ l2 = r2 := by
  induction l1 generalizing r1 with
  | nil =>
    cases r1 with
    | nil => simpa using h
    | cons b r1 =>
      simp only [List.nil_append, List.cons_append, List.cons.injEq] at h
      obtain ⟨rfl, rfl⟩ := h
      simp at hn
  | cons b l1 ih =>
    cases r1 with
    | nil =>
      simp only [List.nil_append, List.cons_append, List.cons.injEq] at h
      obtain ⟨rfl, rfl⟩ := h
      simp at hn
    | cons c r1 =>
      simp only [List.cons_append, List.cons.injEq] at h
      obtain ⟨rfl, h⟩ := h
      have := ih (List.nodup_cons.1 (by simpa using hn)).2 h
      exact ⟨by rw [this.1], this.2⟩

theorem removeAt_ok (z : Loc α) (h : Valid z.root) :
    ∃ t, removeAt z = some t ∧ Valid t ∧ t.inorder = z.pre ++ z.post := by
  obtain ⟨t, h1, h2, h3⟩ := erase_ok z.path z.c z.l z.x z.r h
  exact ⟨t, h1, h2, by rw [h3]; simp [Loc.pre, Loc.post]⟩

theorem iterLoop_ok [DecidableEq α] {σ : Type} (cb : σ → α → Verdict × σ) (fuel : Nat) (t : Tree α) (z : Loc α)
    (s : σ) (vis : List α) (hz : z.root = t) (hv : Valid t) (hn : t.inorder.Nodup)
    (hf : z.post.length < fuel) :
    ∃ r, iterLoop cb fuel t (some z) s vis = some r ∧ Valid r.tree ∧
      r.tree.inorder = z.pre ++ (specIter cb s (z.x :: z.post)).1 ∧
      r.state = (specIter cb s (z.x :: z.post)).2.1 ∧
      r.visited = vis ++ (specIter cb s (z.x :: z.post)).2.2 := by
  induction fuel generalizing t z s vis with
  | zero => omega
  | succ n ih =>
    have hnx := next_ok z
    obtain ⟨t', r1, r2, r3⟩ := removeAt_ok z (hz ▸ hv)
    unfold iterLoop
    simp only
    rcases hcb : cb s z.x with ⟨v, s'⟩
    cases v with
    | brk =>
      simp only [specIter, hcb]
      exact ⟨_, rfl, hv, by rw [← hz, Loc.inorder_root], rfl, rfl⟩
    | removeBrk =>
      simp only [specIter, hcb, r1]
      exact ⟨_, rfl, r2, r3, rfl, rfl⟩
    | cont =>
      simp only [specIter, hcb]
      cases hx : next z with
      | none =>
        rw [hx] at hnx; simp only at hnx
        have : iterLoop cb n t none s' (vis ++ [z.x]) = some ⟨t, s', vis ++ [z.x]⟩ := by
          cases n <;> rfl
        rw [this, hnx]
        exact ⟨_, rfl, hv, by rw [← hz, Loc.inorder_root, hnx]; rfl, rfl, by simp [specIter]⟩
      | some z' =>
        rw [hx] at hnx
        obtain ⟨n1, n2, n3⟩ := hnx
        obtain ⟨r, e1, e2, e3, e4, e5⟩ := ih t z' s' (vis ++ [z.x]) (n1.trans hz) hv hn
          (by rw [n3] at hf; simp at hf; omega)
        refine ⟨r, e1, e2, ?_, ?_, ?_⟩
        · rw [e3, n3, n2]; simp
        · rw [e4, n3]
        · rw [e5, n3]; simp
    | removeCont =>
      simp only [specIter, hcb, r1]
      cases hx : next z with
      | none =>
        rw [hx] at hnx; simp only at hnx
        have : iterLoop cb n t' none s' (vis ++ [z.x]) = some ⟨t', s', vis ++ [z.x]⟩ := by
          cases n <;> rfl
        simp only [this, hnx]
        exact ⟨_, rfl, r2, by rw [r3, hnx]; simp [specIter], rfl, by simp [specIter]⟩
      | some z' =>
        rw [hx] at hnx
        obtain ⟨n1, n2, n3⟩ := hnx
        simp only
        cases hl : locate z'.x t' [] with
        | none =>
          exfalso
          apply locate_none hl
          rw [r3, n3]; simp
        | some z'' =>
          obtain ⟨l1, l2⟩ := locate_some hl
          simp only [zip] at l1
          have hn' : t'.inorder.Nodup := by
            rw [r3]
            rw [← hz, Loc.inorder_root] at hn
            exact hn.sublist (List.Sublist.append_left (List.sublist_cons_self _ _) _)
          have heq : z''.pre ++ z'.x :: z''.post = z.pre ++ z'.x :: z'.post := by
            have := Loc.inorder_root z''
            rw [l1, r3, n3, l2] at this
            exact this.symm
          have hsp := nodup_split (by
            have := Loc.inorder_root z''
            rw [l1, l2] at this
            rw [← this]; exact hn') heq
          obtain ⟨r, e1, e2, e3, e4, e5⟩ := ih t' z'' s' (vis ++ [z.x]) l1 r2 hn'
            (by rw [hsp.2]; rw [n3] at hf; simp at hf; omega)
          refine ⟨r, e1, e2, ?_, ?_, ?_⟩
          · rw [e3, n3, hsp.1, hsp.2, l2]
          · rw [e4, n3, hsp.2, l2]
          · rw [e5, n3, hsp.2, l2]; simp

/-! balance -/

theorem height_le_BH {t : Tree α} {n : Nat} (hb : t.BH n) (hn : t.NoRR) :
    t.height ≤ 2 * n + (if t.isRed then 1 else 0) := by
  induction t generalizing n with
  | nil => simp [Tree.height]
  | node c l x r h1 h2 =>
    cases c
    · have a := h1 hb.1 hn.2.1
      have b := h2 hb.2 hn.2.2
      obtain ⟨hl, hr⟩ := hn.1 rfl
      simp only [hl, hr] at a b
      simp only [Tree.height, isRed_red, if_true]
      simp at a b
      omega
    · obtain ⟨m, rfl, b1, b2⟩ := hb
      have a := h1 b1 hn.2.1
      have b := h2 b2 hn.2.2
      simp only [Tree.height, isRed_black]
      split at a <;> split at b <;> simp <;> omega

theorem pow_BH_le_size {t : Tree α} {n : Nat} (hb : t.BH n) : 2 ^ n ≤ t.size + 1 := by
  induction t generalizing n with
  | nil => simp only [Tree.BH] at hb; subst hb; simp [Tree.size]
  | node c l x r h1 h2 =>
    cases c
    · have a := h1 hb.1
      simp only [Tree.size]; omega
    · obtain ⟨m, rfl, b1, b2⟩ := hb
      have a := h1 b1
      have b := h2 b2
      simp only [Tree.size, Nat.pow_succ]; omega

end Kasync.RB
