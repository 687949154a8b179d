import Verif.Fiber.Join

/-! # Property theorems for fiber exit and join: C23 -/

namespace Kasync.Join

/-- handles whose holder waits in kfiber_join -/
def joining : List Waiter → List Nat
  | [] => []
  | .join h :: ws => h :: joining ws
  | .cb _ :: ws => joining ws

theorem mem_joining {h : Nat} {ws : List Waiter} : h ∈ joining ws ↔ Waiter.join h ∈ ws := by
  induction ws with
  | nil => simp [joining]
  | cons w ws ih => cases w <;> simp [joining, ih]

/-- all handles ever given out, by their present use -/
def allHandles (s : State) : List Nat := s.handles ++ joining s.waiter ++ s.resumed ++ s.joined.map (·.1)

/-- the fiber's own exit has been announced -/
def late (s : State) : Prop := s.phase = .notified ∨ s.phase = .done

/-- The close condition serves everybody: it is manual-reset, or at most one handle or callback exists. -/
def Good (s : State) : Prop := s.cond = some false ∨ s.uses ≤ 1

/-- The invariant; `k` references are held by a call in progress. -/
structure Inv (k : Nat) (s : State) : Prop where
  ref : s.ref = s.handles.length + (joining s.waiter).length + s.resumed.length + (if s.phase = .done then 0 else 1) + k
  freed : s.freed = if s.ref = 0 then 1 else 0
  noCond : s.cond = none → s.handles = [] ∧ s.waiter = [] ∧ s.resumed = [] ∧ s.uses = 0
  run : s.phase = .running → s.exitVal = none
  ran : s.phase ≠ .running → s.exitVal = some s.retval
  early : ¬ late s → s.ev = 0 ∧ s.resumed = [] ∧ s.joined = []
  vals : ∀ j ∈ s.joined, s.exitVal = some j.2
  uses : s.handles.length + s.waiter.length + s.resumed.length ≤ s.uses
  manual : s.cond = some false → late s → s.ev = 1
  one : s.uses ≤ 1 → late s → s.handles ≠ [] → s.ev = 1
  served : Good s → late s → s.waiter = []
  nodup : (allHandles s).Nodup

theorem inv_create (b : Bool) : Inv 0 (create b) := by
  cases b <;> constructor <;> simp [create, joining, late, allHandles]

theorem release_inv {s s' : State} (h : Inv 1 s) (hs : release s = .ok s') : Inv 0 s' ∧
    s' = { s with ref := s.ref - 1, freed := s.freed + (if s.ref = 1 then 1 else 0) } := by
  have hr := h.ref
  unfold release at hs
  split at hs
  · cases hs
  · rename_i hf
    split at hs
    · rename_i h1
      split at hs
      · cases hs
        refine ⟨?_, by simp [h1]⟩
        constructor
        · dsimp only; omega
        · have := h.freed; dsimp only; simp [h1] at this; simp [this]
        · exact h.noCond
        · exact h.run
        · exact h.ran
        · exact h.early
        · exact h.vals
        · exact h.uses
        · exact h.manual
        · exact h.one
        · exact h.served
        · exact h.nodup
      · cases hs
    · rename_i h1
      cases hs
      refine ⟨?_, by simp [h1]⟩
      constructor
      · dsimp only; omega
      · have := h.freed; dsimp only; rw [if_neg (by omega)]; rw [if_neg (by omega)] at this; exact this
      · exact h.noCond
      · exact h.run
      · exact h.ran
      · exact h.early
      · exact h.vals
      · exact h.uses
      · exact h.manual
      · exact h.one
      · exact h.served
      · exact h.nodup

theorem release_ub {t : State} (h : release t = .ub) : t.freed > 0 ∨ t.ref = 0 ∨ (t.ref = 1 ∧ t.waiter ≠ []) := by
  unfold release at h
  split at h
  · rename_i h'; rcases h' with h' | h'
    · exact .inl h'
    · exact .inr (.inl h')
  · split at h
    · rename_i h1
      split at h
      · cases h
      · rename_i h2; exact .inr (.inr ⟨h1, h2⟩)
    · cases h

theorem release_cases (t : State) : release t = .ub ∨ ∃ t', release t = .ok t' ∧ t'.joined = t.joined := by
  unfold release
  split
  · exact .inl rfl
  · split
    · split
      · exact .inr ⟨_, rfl, rfl⟩
      · exact .inl rfl
    · exact .inr ⟨_, rfl, rfl⟩

/-- a call that holds a reference of a good fiber can release it -/
theorem release_ok {s : State} (h : Inv 1 s) (hg : Good s) : release s ≠ .ub := by
  have hr := h.ref
  have hf := h.freed
  unfold release
  rw [if_neg]
  · split
    · rename_i h1
      have hd : s.phase = .done := by
        cases hp : s.phase <;> simp [hp] at hr <;> first | rfl | omega
      rw [if_pos (h.served hg (.inr hd))]; exact fun h => (by cases h)
    · exact fun h => (by cases h)
  · rintro (hf' | hr')
    · rw [if_neg (by omega)] at hf; omega
    · omega

/-- a fiber with a live handle, joiner or execution is not freed -/
theorem not_freed {k : Nat} {s : State} (h : Inv k s) (hp : s.phase ≠ .done ∨ s.handles ≠ [] ∨ s.resumed ≠ []) :
    ¬ s.freed > 0 := by
  have hr := h.ref
  have hf := h.freed
  have : s.ref ≠ 0 := by
    rcases hp with hp | hp | hp
    · rw [if_neg hp] at hr; omega
    · have := List.length_pos_iff.2 hp; omega
    · have := List.length_pos_iff.2 hp; omega
  rw [if_neg this] at hf; omega

theorem wakeAll_eq (ws : List Waiter) (s : State) (g : Int) :
    ∃ called, wakeAll s g ws = { s with resumed := (joining ws).reverse ++ s.resumed, called := called } := by
  induction ws generalizing s with
  | nil => exact ⟨s.called, rfl⟩
  | cons w ws ih =>
    cases w with
    | join h =>
      obtain ⟨c, e⟩ := ih { s with resumed := h :: s.resumed }
      refine ⟨c, ?_⟩
      simp only [wakeAll, wake, e, joining, List.reverse_cons, List.append_assoc, List.cons_append, List.nil_append]
    | cb k =>
      obtain ⟨c, e⟩ := ih { s with called := (k, g) :: s.called }
      refine ⟨c, ?_⟩
      simp only [wakeAll, wake, e, joining]

theorem joining_length_le (ws : List Waiter) : (joining ws).length ≤ ws.length := by
  induction ws with
  | nil => simp [joining]
  | cons w ws ih => cases w <;> simp [joining] <;> omega

theorem takeEv_eq (s : State) (auto : Bool) :
    takeEv s auto = { s with ev := if auto then s.ev - 1 else s.ev } := by
  cases auto <;> rfl

theorem step_inv (s : State) (o : Op) (s' : State) (h : Inv 0 s) (hs : step s o = .ok s') : Inv 0 s' := by
  have hr := h.ref
  cases o with
  | exit v =>
    simp only [step] at hs
    split at hs
    · rename_i hp
      split at hs
      · cases hs
      · cases hs
        have he := h.early (by simp [late, hp])
        constructor
        · simpa [hp] using hr
        · exact h.freed
        · exact h.noCond
        · intro h'; cases h'
        · intro _; rfl
        · intro _; exact he
        · dsimp only; rw [he.2.2]; simp
        · exact h.uses
        · intro _ hl; simp [late] at hl
        · intro _ hl; simp [late] at hl
        · intro _ hl; simp [late] at hl
        · exact h.nodup
    · cases hs
  | exitNotice =>
    simp only [step] at hs
    split at hs
    · rename_i hp
      split at hs
      · cases hs
      · have he := h.early (by simp [late, hp])
        have hran := h.ran (by simp [hp])
        split at hs
        · rename_i hc
          have hn := h.noCond hc
          cases hs
          constructor
          · simpa [hp] using hr
          · exact h.freed
          · exact h.noCond
          · intro h'; cases h'
          · intro _; exact hran
          · intro hl; simp [late] at hl
          · dsimp only; rw [he.2.2]; simp
          · exact h.uses
          · dsimp only; intro h'; rw [hc] at h'; cases h'
          · dsimp only; intro _ _ h'; exact absurd hn.1 h'
          · intro _ _; exact hn.2.1
          · exact h.nodup
        · rename_i auto hc
          cases hs
          have hu := h.uses
          have hnd := h.nodup
          simp only [allHandles] at hnd
          cases auto with
          | false =>
            obtain ⟨c, e⟩ := wakeAll_eq s.waiter { s with phase := .notified, ev := 1, waiter := [] } s.retval
            simp only [notice]
            rw [if_neg (by simp), e]
            constructor
            · simp [hp, joining] at hr ⊢; omega
            · exact h.freed
            · dsimp only; intro h'; rw [hc] at h'; cases h'
            · intro h'; cases h'
            · intro _; exact hran
            · intro hl; simp [late] at hl
            · dsimp only; rw [he.2.2]; simp
            · have := joining_length_le s.waiter; simp; omega
            · intro _ _; rfl
            · intro _ _ _; rfl
            · intro _ _; rfl
            · simp only [allHandles, joining, List.append_nil]
              rw [he.2.1] at hnd ⊢
              simp only [List.append_nil] at hnd ⊢
              refine (List.Perm.nodup_iff ?_).1 hnd
              exact List.Perm.append_right _ (List.Perm.append_left _ (List.reverse_perm _).symm)
          | true =>
            simp only [notice, if_true]
            split
            · rename_i hw
              constructor
              · simpa [hp] using hr
              · exact h.freed
              · exact h.noCond
              · intro h'; cases h'
              · intro _; exact hran
              · intro hl; simp [late] at hl
              · dsimp only; rw [he.2.2]; simp
              · exact hu
              · dsimp only; intro h'; rw [hc] at h'; cases h'
              · dsimp only; intro _ _ _; rw [he.1]
              · intro _ _; exact hw
              · exact h.nodup
            · rename_i w ws hw
              rw [hw] at hr hu hnd
              simp only [List.length_cons] at hu
              have hone : s.uses ≤ 1 → ws = [] ∧ s.handles = [] := by
                intro h1
                constructor
                · exact List.length_eq_zero_iff.1 (by omega)
                · exact List.length_eq_zero_iff.1 (by omega)
              have hgood : ∀ t : State, t.cond = s.cond → t.uses = s.uses → Good t → ws = [] := by
                rintro t e1 e2 (hg | hg)
                · rw [e1, hc] at hg; cases hg
                · exact (hone (e2 ▸ hg)).1
              cases w with
              | join j =>
                simp only [wake]
                simp only [joining, List.length_cons] at hr
                constructor
                · simp [hp] at hr ⊢; omega
                · exact h.freed
                · dsimp only; intro h'; rw [hc] at h'; cases h'
                · intro h'; cases h'
                · intro _; exact hran
                · intro hl; simp [late] at hl
                · dsimp only; rw [he.2.2]; simp
                · simp; omega
                · dsimp only; intro h'; rw [hc] at h'; cases h'
                · dsimp only; intro h' _ h3; exact absurd (hone h').2 h3
                · intro hg _; exact hgood _ (by simp) (by simp) hg
                · simp only [allHandles, joining] at hnd ⊢
                  rw [he.2.1] at hnd ⊢
                  refine (List.Perm.nodup_iff ?_).1 hnd
                  refine List.Perm.append_right _ ?_
                  simp only [List.append_assoc]
                  refine List.Perm.append_left _ ?_
                  simp only [List.append_nil]
                  exact (List.perm_append_singleton _ _).symm
              | cb c =>
                simp only [wake]
                simp only [joining] at hr
                constructor
                · simp [hp] at hr ⊢; omega
                · exact h.freed
                · dsimp only; intro h'; rw [hc] at h'; cases h'
                · intro h'; cases h'
                · intro _; exact hran
                · intro hl; simp [late] at hl
                · dsimp only; rw [he.2.2]; simp
                · simp; omega
                · dsimp only; intro h'; rw [hc] at h'; cases h'
                · dsimp only; intro h' _ h3; exact absurd (hone h').2 h3
                · intro hg _; exact hgood _ (by simp) (by simp) hg
                · simpa only [allHandles, joining] using hnd
    · cases hs
  | exitRelease =>
    simp only [step] at hs
    split at hs
    · rename_i hp
      refine (release_inv ?_ hs).1
      have hl : late s := .inl hp
      constructor
      · simp [hp] at hr ⊢; omega
      · exact h.freed
      · exact h.noCond
      · intro h'; cases h'
      · intro _; exact h.ran (by simp [hp])
      · intro hl; simp [late] at hl
      · exact h.vals
      · exact h.uses
      · intro h1 _; exact h.manual h1 hl
      · intro h1 _; exact h.one h1 hl
      · intro h1 _; exact h.served h1 hl
      · exact h.nodup
    · cases hs
  | join j =>
    simp only [step] at hs
    split at hs
    · rename_i hj
      have hlen := List.length_erase_of_mem hj
      have hpos := List.length_pos_of_mem hj
      have hu := h.uses
      have hnd := h.nodup
      have hperm := List.perm_cons_erase hj
      simp only [allHandles] at hnd
      split at hs
      · cases hs
      · split at hs
        · cases hs
        · rename_i auto hc
          split at hs
          · rename_i hev
            have hl : late s := by
              refine Classical.byContradiction fun hl => ?_
              have := h.early hl; omega
            cases hs
            rw [takeEv_eq]
            constructor
            · dsimp only; simp only [List.length_cons]; omega
            · exact h.freed
            · dsimp only; intro h'; rw [hc] at h'; cases h'
            · exact h.run
            · exact h.ran
            · intro h'; exact absurd hl h'
            · exact h.vals
            · dsimp only; simp only [List.length_cons]; omega
            · dsimp only; intro h1 _
              rw [hc] at h1; cases h1
              exact h.manual hc hl
            · dsimp only; intro h1 _ h3
              have := List.length_pos_iff.2 h3; omega
            · intro h1 _; exact h.served h1 hl
            · simp only [allHandles]
              refine (List.Perm.nodup_iff ?_).1 hnd
              refine List.Perm.append_right _ ?_
              refine (List.Perm.append_right _ (List.Perm.append_right _ hperm)).trans ?_
              simp only [List.cons_append]
              exact List.perm_middle.symm
          · rename_i hev
            cases hs
            have hnl : Good s → ¬ late s := by
              rintro (hg | hg) hl
              · have := h.manual hg hl; omega
              · have := h.one hg hl (List.length_pos_iff.1 hpos); omega
            constructor
            · dsimp only; simp only [joining, List.length_cons]; omega
            · exact h.freed
            · dsimp only; intro h'; rw [hc] at h'; cases h'
            · exact h.run
            · exact h.ran
            · exact h.early
            · exact h.vals
            · dsimp only; simp only [List.length_cons]; omega
            · exact h.manual
            · dsimp only; intro h1 _ h3
              have := List.length_pos_iff.2 h3; omega
            · intro h1 h2; exact absurd h2 (hnl h1)
            · simp only [allHandles, joining]
              refine (List.Perm.nodup_iff ?_).1 hnd
              refine List.Perm.append_right _ (List.Perm.append_right _ ?_)
              refine (List.Perm.append_right _ hperm).trans ?_
              simp only [List.cons_append]
              exact List.perm_middle.symm
    · cases hs
  | joinEnd j =>
    simp only [step] at hs
    split at hs
    · rename_i hj
      have hlen := List.length_erase_of_mem hj
      have hpos := List.length_pos_of_mem hj
      have hu := h.uses
      have hnd := h.nodup
      have hperm := List.perm_cons_erase hj
      simp only [allHandles] at hnd
      have hl : late s := by
        refine Classical.byContradiction fun hl => ?_
        have := (h.early hl).2.1; rw [this] at hpos; simp at hpos
      split at hs
      · cases hs
      · refine (release_inv ?_ hs).1
        constructor
        · dsimp only; omega
        · exact h.freed
        · dsimp only; intro hc; have := (h.noCond hc).2.2.1; rw [this] at hpos; simp at hpos
        · exact h.run
        · exact h.ran
        · intro h'; exact absurd hl h'
        · dsimp only; intro x hx
          rcases List.mem_cons.1 hx with rfl | hx
          · refine h.ran ?_
            rcases hl with hp | hp <;> rw [hp] <;> simp
          · exact h.vals x hx
        · dsimp only; omega
        · exact h.manual
        · exact h.one
        · exact h.served
        · simp only [allHandles, List.map_cons]
          refine (List.Perm.nodup_iff ?_).1 hnd
          refine (List.Perm.append_right _ (List.Perm.append_left _ hperm)).trans ?_
          simp only [List.append_assoc, List.cons_append]
          refine List.Perm.append_left _ (List.Perm.append_left _ List.perm_middle.symm)
    · cases hs
  | tryJoin j =>
    simp only [step] at hs
    split at hs
    · rename_i hj
      have hlen := List.length_erase_of_mem hj
      have hpos := List.length_pos_of_mem hj
      have hu := h.uses
      have hnd := h.nodup
      have hperm := List.perm_cons_erase hj
      simp only [allHandles] at hnd
      split at hs
      · cases hs
      · split at hs
        · cases hs
        · rename_i auto hc
          split at hs
          · rename_i hev
            have hl : late s := by
              refine Classical.byContradiction fun hl => ?_
              have := h.early hl; omega
            refine (release_inv ?_ hs).1
            rw [takeEv_eq]
            constructor
            · dsimp only; omega
            · exact h.freed
            · dsimp only; intro h'; rw [hc] at h'; cases h'
            · exact h.run
            · exact h.ran
            · intro h'; exact absurd hl h'
            · dsimp only; intro x hx
              rcases List.mem_cons.1 hx with rfl | hx
              · refine h.ran ?_
                rcases hl with hp | hp <;> rw [hp] <;> simp
              · exact h.vals x hx
            · dsimp only; omega
            · dsimp only; intro h1 _
              rw [hc] at h1; cases h1
              exact h.manual hc hl
            · dsimp only; intro h1 _ h3
              have := List.length_pos_iff.2 h3; omega
            · intro h1 _; exact h.served h1 hl
            · simp only [allHandles, List.map_cons]
              refine (List.Perm.nodup_iff ?_).1 hnd
              refine (List.Perm.append_right _ (List.Perm.append_right _ (List.Perm.append_right _ hperm))).trans ?_
              simp only [List.cons_append]
              exact List.perm_middle.symm
          · cases hs; exact h
    · cases hs
  | join2 j c =>
    simp only [step] at hs
    split at hs
    · rename_i hj
      have hlen := List.length_erase_of_mem hj
      have hpos := List.length_pos_of_mem hj
      have hu := h.uses
      have hnd := h.nodup
      have hnd' : (s.handles.erase j ++ joining s.waiter ++ s.resumed ++ s.joined.map (·.1)).Nodup := by
        refine List.Nodup.sublist ?_ hnd
        exact List.Sublist.append (List.Sublist.append (List.Sublist.append List.erase_sublist (List.Sublist.refl _))
          (List.Sublist.refl _)) (List.Sublist.refl _)
      split at hs
      · cases hs
      · split at hs
        · rename_i hc; rw [(h.noCond hc).1] at hj; cases hj
        · rename_i auto hc
          split at hs
          · rename_i hev
            have hl : late s := by
              refine Classical.byContradiction fun hl => ?_
              have := h.early hl; omega
            refine (release_inv ?_ hs).1
            rw [takeEv_eq]
            constructor
            · dsimp only; omega
            · exact h.freed
            · dsimp only; intro h'; rw [hc] at h'; cases h'
            · exact h.run
            · exact h.ran
            · intro h'; exact absurd hl h'
            · exact h.vals
            · dsimp only; omega
            · dsimp only; intro h1 _
              rw [hc] at h1; cases h1
              exact h.manual hc hl
            · dsimp only; intro h1 _ h3
              have := List.length_pos_iff.2 h3; omega
            · intro h1 _; exact h.served h1 hl
            · exact hnd'
          · rename_i hev
            have hnl : Good s → ¬ late s := by
              rintro (hg | hg) hl
              · have := h.manual hg hl; omega
              · have := h.one hg hl (List.length_pos_iff.1 hpos); omega
            refine (release_inv ?_ hs).1
            constructor
            · dsimp only; simp only [joining]; omega
            · exact h.freed
            · dsimp only; intro h'; rw [hc] at h'; cases h'
            · exact h.run
            · exact h.ran
            · exact h.early
            · exact h.vals
            · dsimp only; simp only [List.length_cons]; omega
            · exact h.manual
            · dsimp only; intro h1 _ h3
              have := List.length_pos_iff.2 h3; omega
            · intro h1 h2; exact absurd h2 (hnl h1)
            · exact hnd'
    · cases hs
  | exitCallback c =>
    simp only [step] at hs
    split at hs
    · rename_i hp
      have hnl : ¬ late s := by simp [late, hp]
      have he := h.early hnl
      have hu := h.uses
      split at hs
      · cases hs
      · rw [he.1] at hs
        simp only [gt_iff_lt, Nat.lt_irrefl, if_false] at hs
        cases hs
        constructor
        · exact hr
        · exact h.freed
        · intro h'; cases h'
        · exact h.run
        · exact h.ran
        · intro _; exact ⟨rfl, he.2⟩
        · exact h.vals
        · dsimp only; simp only [List.length_cons]; omega
        · intro _ h2; exact absurd h2 hnl
        · intro _ h2; exact absurd h2 hnl
        · intro _ h2; exact absurd h2 hnl
        · exact h.nodup
    · cases hs
  | refSelf j =>
    simp only [step] at hs
    split at hs
    · rename_i hp
      obtain ⟨hp, n1, n2, n3, n4⟩ := hp
      have hnl : ¬ late s := by simp [late, hp]
      have hu := h.uses
      have hnd := h.nodup
      split at hs
      · cases hs
      · cases hs
        constructor
        · dsimp only; simp only [List.length_cons]; omega
        · have := h.freed; dsimp only
          rw [if_neg (by omega)]
          rw [if_neg (by rw [hr, hp]; simp)] at this; exact this
        · intro h'; cases h'
        · exact h.run
        · exact h.ran
        · exact h.early
        · exact h.vals
        · dsimp only; simp only [List.length_cons]; omega
        · intro _ h2; exact absurd h2 hnl
        · intro _ h2; exact absurd h2 hnl
        · intro _ h2; exact absurd h2 hnl
        · simp only [allHandles, List.cons_append] at hnd ⊢
          refine List.nodup_cons.2 ⟨?_, hnd⟩
          simp only [List.mem_append, mem_joining]
          rintro (((h1 | h1) | h1) | h1)
          · exact n1 h1
          · exact n3 h1
          · exact n2 h1
          · exact n4 h1
    · cases hs

theorem reach_inv {b : Bool} {s : State} (h : Reachable step (create b) s) : Inv 0 s :=
  h.invariant (inv_create b) step_inv

/-- A fiber created joinable always has a condition that serves everybody. -/
theorem joinable_good {s : State} (h : Reachable step (create true) s) : s.cond = some false := by
  refine h.invariant (P := fun s => s.cond = some false) rfl ?_
  intro s o s' hc hs
  have hrel : ∀ {t t' : State}, release t = .ok t' → t.cond = some false → t'.cond = some false := by
    intro t t' hr ht
    unfold release at hr
    split at hr
    · cases hr
    · split at hr
      · split at hr
        · cases hr; exact ht
        · cases hr
      · cases hr; exact ht
  cases o with
  | exit v =>
    simp only [step] at hs
    split at hs
    · split at hs
      · cases hs
      · cases hs; exact hc
    · cases hs
  | exitNotice =>
    simp only [step, hc] at hs
    split at hs
    · split at hs
      · cases hs
      · cases hs
        obtain ⟨c, e⟩ := wakeAll_eq s.waiter { s with phase := .notified, ev := 1, waiter := [] } s.retval
        simp only [notice, Bool.false_eq_true, if_false, hc] at e ⊢
        rw [e]
    · cases hs
  | exitRelease =>
    simp only [step] at hs
    split at hs
    · exact hrel hs hc
    · cases hs
  | join j =>
    simp only [step, hc, takeEv_eq] at hs
    split at hs
    · split at hs
      · cases hs
      · split at hs <;> cases hs <;> first | exact hc | rfl
    · cases hs
  | joinEnd j =>
    simp only [step] at hs
    split at hs
    · split at hs
      · cases hs
      · exact hrel hs hc
    · cases hs
  | tryJoin j =>
    simp only [step, hc, takeEv_eq] at hs
    split at hs
    · split at hs
      · cases hs
      · split at hs
        · exact hrel hs (by first | exact hc | rfl)
        · cases hs; exact hc
    · cases hs
  | join2 j c =>
    simp only [step, hc, takeEv_eq] at hs
    split at hs
    · split at hs
      · cases hs
      · split at hs <;> exact hrel hs (by first | exact hc | rfl)
    · cases hs
  | exitCallback c =>
    simp only [step, hc, takeEv_eq] at hs
    split at hs
    · split at hs
      · cases hs
      · split at hs <;> cases hs <;> simp
    · cases hs
  | refSelf j =>
    simp only [step, hc] at hs
    split at hs
    · split at hs
      · cases hs
      · cases hs; rfl
    · cases hs

/-- No failure, in the general form: fibers with a manual-reset close condition or with at most one handle or callback. -/
theorem no_failure_of_good {b : Bool} {s : State} (h : Reachable step (create b) s) (hg : Good s) (o : Op) :
    step s o ≠ .ub := by
  have hi := reach_inv h
  intro hub
  -- the release of each operation runs in a state that keeps the invariant with one reference in hand
  have key : ∀ t : State, Inv 1 t → t.cond = s.cond → t.uses = s.uses → release t = .ub → False := by
    intro t ht e1 e2 hr
    exact release_ok ht (by unfold Good; rw [e1, e2]; exact hg) hr
  -- every release of a step comes from the same intermediate state; take it apart as in `step_inv`
  have hr := hi.ref
  cases o with
  | exit v =>
    simp only [step] at hub
    split at hub
    · rename_i hp; rw [if_neg (not_freed hi (.inl (by rw [hp]; simp)))] at hub; cases hub
    · cases hub
  | exitNotice =>
    simp only [step] at hub
    split at hub
    · rename_i hp; rw [if_neg (not_freed hi (.inl (by rw [hp]; simp)))] at hub
      split at hub <;> cases hub
    · cases hub
  | exitRelease =>
    simp only [step] at hub
    split at hub
    · rename_i hp
      refine key { s with phase := .done } ?_ rfl rfl hub
      have hl : late s := .inl hp
      constructor
      · simp [hp] at hr ⊢; omega
      · exact hi.freed
      · exact hi.noCond
      · intro h'; cases h'
      · intro _; exact hi.ran (by simp [hp])
      · intro hl; simp [late] at hl
      · exact hi.vals
      · exact hi.uses
      · intro h1 _; exact hi.manual h1 hl
      · intro h1 _; exact hi.one h1 hl
      · intro h1 _; exact hi.served h1 hl
      · exact hi.nodup
    · cases hub
  | join j =>
    simp only [step] at hub
    split at hub
    · rename_i hj
      have hne : s.handles ≠ [] := List.ne_nil_of_mem hj
      rw [if_neg (not_freed hi (.inr (.inl hne)))] at hub
      split at hub
      · rename_i hc; exact hne (hi.noCond hc).1
      · split at hub <;> cases hub
    · cases hub
  | joinEnd j =>
    simp only [step] at hub
    split at hub
    · rename_i hj
      have hne : s.resumed ≠ [] := List.ne_nil_of_mem hj
      have hnf := not_freed hi (.inr (.inr hne))
      rw [if_neg hnf] at hub
      have hpos := List.length_pos_of_mem hj
      have hlen := List.length_erase_of_mem hj
      have hf := hi.freed
      rcases release_ub hub with h' | h' | ⟨h1, h2⟩
      · exact hnf h'
      · have : s.ref = 0 := h'
        omega
      · have h1 : s.ref = 1 := h1
        have hd : s.phase = .done := by
          cases hp : s.phase <;> simp [hp] at hr <;> first | rfl | omega
        exact h2 (hi.served hg (.inr hd))
    · cases hub
  | tryJoin j =>
    simp only [step] at hub
    split at hub
    · rename_i hj
      have hne : s.handles ≠ [] := List.ne_nil_of_mem hj
      have hnf := not_freed hi (.inr (.inl hne))
      rw [if_neg hnf] at hub
      have hpos := List.length_pos_of_mem hj
      split at hub
      · rename_i hc; exact hne (hi.noCond hc).1
      · split at hub
        · rw [takeEv_eq] at hub
          rcases release_ub hub with h' | h' | ⟨h1, h2⟩
          · exact hnf h'
          · have : s.ref = 0 := h'
            omega
          · have h1 : s.ref = 1 := h1
            have hd : s.phase = .done := by
              cases hp : s.phase <;> simp [hp] at hr <;> first | rfl | omega
            exact h2 (hi.served hg (.inr hd))
        · cases hub
    · cases hub
  | join2 j c =>
    simp only [step] at hub
    split at hub
    · rename_i hj
      have hne : s.handles ≠ [] := List.ne_nil_of_mem hj
      have hnf := not_freed hi (.inr (.inl hne))
      rw [if_neg hnf] at hub
      have hpos := List.length_pos_of_mem hj
      split at hub
      · rename_i hc; exact hne (hi.noCond hc).1
      · split at hub
        · rw [takeEv_eq] at hub
          rcases release_ub hub with h' | h' | ⟨h1, h2⟩
          · exact hnf h'
          · have : s.ref = 0 := h'
            omega
          · have h1 : s.ref = 1 := h1
            have hd : s.phase = .done := by
              cases hp : s.phase <;> simp [hp] at hr <;> first | rfl | omega
            exact h2 (hi.served hg (.inr hd))
        · rename_i hev
          rcases release_ub hub with h' | h' | ⟨h1, h2⟩
          · exact hnf h'
          · have : s.ref = 0 := h'
            omega
          · have h1 : s.ref = 1 := h1
            have hd : s.phase = .done := by
              cases hp : s.phase <;> simp [hp] at hr <;> first | rfl | omega
            rcases hg with hg | hg
            · have := hi.manual hg (.inr hd); omega
            · have := hi.one hg (.inr hd) hne; omega
    · cases hub
  | exitCallback c =>
    simp only [step] at hub
    split at hub
    · rename_i hp
      rw [if_neg (not_freed hi (.inl (by rw [hp]; simp)))] at hub
      split at hub <;> cases hub
    · cases hub
  | refSelf j =>
    simp only [step] at hub
    split at hub
    · rename_i hp
      rw [if_neg (not_freed hi (.inl (by rw [hp.1]; simp)))] at hub
      cases hub
    · cases hub

/-- **C23.** A fiber created joinable is never touched after it was freed, never released too often and never freed with
somebody still waiting on its close condition, whatever the order of exit, joins, try-joins, callback joins, extra handles
and exit callbacks. -/
theorem fiber_no_use_after_free (s : State) (h : Reachable step (create true) s) (o : Op) : step s o ≠ .ub :=
  no_failure_of_good h (.inl (joinable_good h)) o

/-- **C23.** A detached fiber likewise, as long as at most one handle or exit callback is taken. -/
theorem fiber_detached_no_failure (s : State) (h : Reachable step (create false) s) (hu : s.uses ≤ 1) (o : Op) :
    step s o ≠ .ub :=
  no_failure_of_good h (.inr hu) o

/-- **C23.** Every join hands out exactly the value the start function returned, and each handle is joined at most once. -/
theorem fiber_join_value (b : Bool) (s : State) (h : Reachable step (create b) s) :
    (∀ j v, (j, v) ∈ s.joined → s.exitVal = some v) ∧ (s.joined.map (·.1)).Nodup ∧
    (s.phase = .running → s.joined = [] ∧ s.resumed = []) := by
  have hi := reach_inv h
  refine ⟨fun j v hj => hi.vals (j, v) hj, (List.nodup_append.1 hi.nodup).2.1, fun hp => ?_⟩
  have := hi.early (by simp [late, hp])
  exact ⟨this.2.2, this.2.1⟩

/-- **C23.** The object is freed exactly once, exactly when the fiber has exited and every handle has been joined:
never before both. -/
theorem fiber_freed_exactly_once (b : Bool) (s : State) (h : Reachable step (create b) s) :
    s.freed ≤ 1 ∧
    (s.freed = 1 ↔ s.phase = .done ∧ s.handles = [] ∧ (∀ j, Waiter.join j ∉ s.waiter) ∧ s.resumed = []) := by
  have hi := reach_inv h
  have hr := hi.ref
  have hf := hi.freed
  refine ⟨by rw [hf]; split <;> omega, ?_⟩
  have hj : (joining s.waiter).length = 0 ↔ ∀ j, Waiter.join j ∉ s.waiter := by
    rw [List.length_eq_zero_iff, List.eq_nil_iff_forall_not_mem]
    simp only [mem_joining]
  constructor
  · intro h1
    have h0 : s.ref = 0 := by
      refine Classical.byContradiction fun hne => ?_
      rw [if_neg hne] at hf; omega
    have hd : s.phase = .done := by
      refine Classical.byContradiction fun hne => ?_
      rw [if_neg hne] at hr; omega
    rw [if_pos hd] at hr
    exact ⟨hd, List.length_eq_zero_iff.1 (by omega), hj.1 (by omega), List.length_eq_zero_iff.1 (by omega)⟩
  · rintro ⟨h1, h2, h3, h4⟩
    have := hj.2 h3
    rw [if_pos h1, h2, h4, this] at hr
    rw [hf, if_pos (by simpa using hr)]

/-- **C23.** No join is lost: once a joinable fiber has announced its exit nobody waits for it any more, and a join or
try-join with a handle completes without waiting. -/
theorem fiber_join_completes (s : State) (h : Reachable step (create true) s)
    (hl : s.phase = .notified ∨ s.phase = .done) :
    s.waiter = [] ∧ (∀ j ∈ s.handles, ∃ s', step s (.join j) = .ok s' ∧ j ∈ s'.resumed ∧
        ∃ s'', step s' (.joinEnd j) = .ok s'' ∧ ∃ v, s.exitVal = some v ∧ (j, v) ∈ s''.joined) ∧
      (∀ j ∈ s.handles, ∃ s', step s (.tryJoin j) = .ok s' ∧ ∃ v, s.exitVal = some v ∧ (j, v) ∈ s'.joined) := by
  have hi := reach_inv h
  have hc := joinable_good h
  have hev := hi.manual hc hl
  have hran : s.exitVal = some s.retval := hi.ran (by rcases hl with h | h <;> rw [h] <;> simp)
  refine ⟨hi.served (.inl hc) hl, ?_, ?_⟩
  · intro j hj
    have hnf := not_freed hi (.inr (.inl (List.ne_nil_of_mem hj)))
    have e1 : step s (.join j) = .ok { s with handles := s.handles.erase j, resumed := j :: s.resumed } := by
      simp only [step, hj, if_true]
      rw [if_neg hnf, hc]
      dsimp only
      rw [if_pos (by omega)]
      simp only [takeEv_eq, Bool.false_eq_true, if_false, hc]
    refine ⟨_, e1, by simp, ?_⟩
    have hre : Reachable step (create true) { s with handles := s.handles.erase j, resumed := j :: s.resumed } :=
      .tail _ h e1
    have hno := fiber_no_use_after_free _ hre (.joinEnd j)
    have hnf' := not_freed (reach_inv hre) (.inr (.inr (by simp)))
    simp only [step, List.mem_cons, true_or, if_true] at hno ⊢
    rw [if_neg hnf'] at hno ⊢
    rcases release_cases (State.mk s.phase s.ref s.retval s.cond s.ev s.waiter (s.handles.erase j)
      ((j :: s.resumed).erase j) s.freed s.exitVal ((j, s.retval) :: s.joined) s.called s.uses) with hu | ⟨t', ht, hjn⟩
    · exact absurd hu hno
    · exact ⟨t', ht, s.retval, hran, by rw [hjn]; simp⟩
  · intro j hj
    have hnf := not_freed hi (.inr (.inl (List.ne_nil_of_mem hj)))
    have hno := fiber_no_use_after_free _ h (.tryJoin j)
    have e1 : step s (.tryJoin j) = release { s with handles := s.handles.erase j, joined := (j, s.retval) :: s.joined } := by
      simp only [step, hj, if_true]
      rw [if_neg hnf, hc]
      dsimp only
      rw [if_pos (by omega)]
      simp only [takeEv_eq, Bool.false_eq_true, if_false, hc]
    rw [e1] at hno ⊢
    rcases release_cases { s with handles := s.handles.erase j, joined := (j, s.retval) :: s.joined }
      with hu | ⟨t', ht, hjn⟩
    · exact absurd hu hno
    · exact ⟨t', ht, s.retval, hran, by rw [hjn]; simp⟩

/-- **C23.** A detached fiber to which nobody took a handle is freed by its exit. -/
theorem fiber_detached_freed_at_exit (s s' : State) (h : Reachable step (create false) s)
    (hn : s.handles = [] ∧ s.resumed = [] ∧ ∀ j, Waiter.join j ∉ s.waiter) (hs : step s .exitRelease = .ok s') :
    s'.freed = 1 := by
  have hr' : Reachable step (create false) s' := .tail _ h hs
  rw [(fiber_freed_exactly_once false s' hr').2]
  simp only [step] at hs
  split at hs
  · unfold release at hs
    split at hs
    · cases hs
    · split at hs
      · split at hs
        · cases hs; exact ⟨rfl, hn.1, hn.2.2, hn.2.1⟩
        · cases hs
      · cases hs; exact ⟨rfl, hn.1, hn.2.2, hn.2.1⟩
  · cases hs

/-- **C23.** A callback registered (by kfiber_join2 or kfiber_exit_callback) before the exit of a joinable fiber is
invoked with the exit value when the exit is announced. -/
theorem fiber_callback_value (s s' : State) (h : Reachable step (create true) s) (c : Nat) (hw : Waiter.cb c ∈ s.waiter)
    (hs : step s .exitNotice = .ok s') : ∃ v, s.exitVal = some v ∧ (c, v) ∈ s'.called := by
  have hi := reach_inv h
  have hc := joinable_good h
  have aux : ∀ (ws : List Waiter) (t : State) (g : Int), (∀ x ∈ t.called, x ∈ (wakeAll t g ws).called) ∧
      (∀ c, Waiter.cb c ∈ ws → (c, g) ∈ (wakeAll t g ws).called) := by
    intro ws
    induction ws with
    | nil => intro t g; exact ⟨fun x hx => hx, by simp⟩
    | cons w ws ih =>
      intro t g
      cases w with
      | join j =>
        obtain ⟨a, b⟩ := ih (wake t g (.join j)) g
        refine ⟨fun x hx => a x hx, fun c hc => ?_⟩
        rcases List.mem_cons.1 hc with h | h
        · cases h
        · exact b c h
      | cb k =>
        obtain ⟨a, b⟩ := ih (wake t g (.cb k)) g
        refine ⟨fun x hx => a x (List.mem_cons_of_mem _ hx), fun c hc => ?_⟩
        rcases List.mem_cons.1 hc with h | h
        · cases h; exact a _ (List.mem_cons_self ..)
        · exact b c h
  simp only [step, hc] at hs
  split at hs
  · rename_i hp
    split at hs
    · cases hs
    · cases hs
      refine ⟨s.retval, hi.ran (by rw [hp]; simp), ?_⟩
      simp only [notice, Bool.false_eq_true, if_false]
      exact (aux _ _ _).2 c hw
  · cases hs

/-- **Finding (C23).** kfiber_join2 on a fiber that already exited calls back with 0, not with the exit value. -/
theorem join2_after_exit_loses_value :
    ∃ s, run step (create true) [.exit 42, .exitNotice, .exitRelease, .join2 0 7] = some s ∧
      s.called = [(7, 0)] ∧ s.exitVal = some 42 := ⟨_, rfl, rfl, rfl⟩

/-- **Finding (C23).** Two handles taken with kfiber_ref_self on a detached fiber: after the exit and one join the other
join waits for ever (its condition is auto-reset) and the fiber is never freed: from then on no step is possible. -/
theorem ref_self_twice_hangs :
    ∃ s, run step (create false) [.refSelf 1, .refSelf 2, .join 1, .join 2, .exit 5, .exitNotice, .exitRelease, .joinEnd 2] = some s ∧
      s.waiter = [.join 1] ∧ s.freed = 0 ∧ ∀ o, step s o = .disabled := by
  refine ⟨⟨.done, 1, 5, some true, 0, [.join 1], [], [], 0, some 5, [(2, 5)], [], 2⟩, rfl, rfl, rfl, ?_⟩
  intro o
  cases o <;> simp [step]

/-- **Finding (C23).** Two exit callbacks on a detached fiber: the exit calls only the later one and then fails the
assertion that nobody waits on the condition being destroyed. -/
theorem exit_callback_twice_fails :
    ∃ s, run step (create false) [.exitCallback 1, .exitCallback 2, .exit 5, .exitNotice] = some s ∧
      s.called = [(2, 5)] ∧ step s .exitRelease = .ub := ⟨_, rfl, rfl, rfl⟩

/-- Both orders of exit and join. -/
example : (∃ s, run step (create true) [.join 0, .exit 42, .exitNotice, .joinEnd 0, .exitRelease] = some s ∧
      s.joined = [(0, 42)] ∧ s.freed = 1) ∧
    (∃ s, run step (create true) [.exit 42, .exitNotice, .exitRelease, .join 0, .joinEnd 0] = some s ∧
      s.joined = [(0, 42)] ∧ s.freed = 1) ∧
    (∃ s, run step (create false) [.exit 42, .exitNotice, .exitRelease] = some s ∧ s.freed = 1) :=
  ⟨⟨_, rfl, rfl, rfl⟩, ⟨_, rfl, rfl, rfl⟩, ⟨_, rfl, rfl⟩⟩

end Kasync.Join
