import Verif.Sync.Chan

/-! # Property theorems for kfiber_chan: C22 -/

namespace Kasync.Chan

/-- values of senders that wait or are about to be released by close -/
def pending (s : State) : List Msg := (s.waiter ++ s.closing).filterMap (·.2)

/-- all fibers suspended in a channel operation -/
def suspended (s : State) : List Nat := s.waiter.map (·.1) ++ s.closing.map (·.1) ++ s.held.map (·.1)

/-- The invariant. -/
structure Inv (s : State) : Prop where
  none_iff : s.flag = .noWaiter ↔ s.waiter = []
  sendW : s.flag = .sendWaiter → ∀ w ∈ s.waiter, ∃ m, w.2 = some m
  recvW : s.flag = .recvWaiter → ∀ w ∈ s.waiter, w.2 = none
  closedW : s.closed = true → s.waiter = []
  openC : s.closed = false → s.closing = []
  owner : ∀ w ∈ s.waiter ++ s.closing, ∀ m, w.2 = some m → m.sender = w.1
  heldOwner : ∀ w ∈ s.held, w.2.sender = w.1
  nodup : (suspended s).Nodup
  ids : ((pending s ++ s.sendClosed ++ s.recvd.map (·.2)).map (·.id)).Perm (List.range s.nsend)
  got : (s.recvd.map (·.2)).Perm (s.sendRet.map (·.1) ++ s.held.map (·.2))
  fresh : ∀ m ∈ pending s, ∀ r ∈ s.recvd, r.2.sender = m.sender → r.2.id < m.id
  order : s.recvd.Pairwise (fun a b => a.2.sender = b.2.sender → b.2.id < a.2.id)

theorem inv_init : Inv init := by
  constructor <;> simp [init, pending, suspended]

theorem id_lt {s : State} (h : Inv s) {m : Msg} (hm : m ∈ pending s ++ s.sendClosed ++ s.recvd.map (·.2)) :
    m.id < s.nsend := by
  have : m.id ∈ (pending s ++ s.sendClosed ++ s.recvd.map (·.2)).map (·.id) := List.mem_map.2 ⟨m, hm, rfl⟩
  simpa using h.ids.subset this

theorem not_blocked {s : State} {f : Nat} (h : ¬ blocked s f) : f ∉ suspended s := by
  simp only [blocked, suspended, List.mem_append] at *; grind

theorem recvd_lt {s : State} (h : Inv s) : ∀ r ∈ s.recvd, r.2.id < s.nsend := fun r hr =>
  id_lt h (List.mem_append.2 (.inr (List.mem_map.2 ⟨r, hr, rfl⟩)))

theorem send_inv (sel : Nat → Nat) {s s' : State} {f d : Nat} (h : Inv s) (hb : ¬ blocked s f)
    (hs : send sel s f d = .ok s') : Inv s' := by
  have hb' := not_blocked hb
  have hlt := recvd_lt h
  have hlt' := fun m hm => id_lt h (m := m) hm
  unfold send at hs
  split at hs
  · cases hs; exact ⟨h.1, h.2, h.3, h.4, h.5, h.6, h.7, h.8, h.9, h.10, h.11, h.12⟩
  · rename_i hc
    have hcl : s.closing = [] := h.openC (by simpa using hc)
    dsimp only at hs
    split at hs
    · -- first sender
      rename_i hf hw
      cases hs
      have hids := h.ids
      simp only [pending, hw, hcl, List.append_nil, List.nil_append, List.filterMap_nil] at hids
      constructor
      all_goals dsimp only [pending, suspended]
      · simp
      · simp
      · simp
      · intro hc'; exact absurd hc' hc
      · intro _; exact hcl
      · simp [hcl]
      · exact h.heldOwner
      · have := h.nodup
        simp only [suspended, hw, hcl] at this hb'
        simp only [hcl]
        simp at this hb' ⊢; exact ⟨hb', this⟩
      · simp only [hcl, List.append_nil, List.filterMap_cons, List.filterMap_nil, List.range_succ]
        simp only [List.cons_append, List.nil_append, List.map_cons]
        exact (List.Perm.cons _ hids).trans (List.perm_append_singleton _ _).symm
      · exact h.got
      · simp only [hcl, List.append_nil, List.filterMap_cons, List.filterMap_nil, List.mem_singleton]
        rintro m rfl r hr _; exact hlt r hr
      · exact h.order
    · cases hs
    · cases hs
    · -- further sender
      rename_i w ws hf hw
      split at hs
      · cases hs
        have hids := h.ids
        simp only [pending, hcl, List.append_nil] at hids
        constructor
        all_goals dsimp only [pending, suspended]
        · simp [hf]
        · intro _ x hx
          rcases List.mem_cons.1 hx with rfl | hx
          · exact ⟨_, rfl⟩
          · exact h.sendW hf x (hw ▸ hx)
        · intro hf'; rw [hf] at hf'; cases hf'
        · intro hc'; exact absurd hc' hc
        · intro _; exact hcl
        · intro x hx m hm
          rw [hcl, List.append_nil] at hx
          rcases List.mem_cons.1 hx with rfl | hx
          · cases hm; rfl
          · exact h.owner x (List.mem_append.2 (.inl (hw ▸ hx))) m hm
        · exact h.heldOwner
        · have := h.nodup
          simp only [suspended, hcl] at this hb'
          simp only [hcl, ← hw]
          simp only [List.map_cons, List.cons_append, List.map_nil, List.append_nil] at *
          exact List.nodup_cons.2 ⟨hb', this⟩
        · simp only [hcl, List.append_nil, ← hw, List.filterMap_cons, List.range_succ]
          simp only [List.cons_append, List.map_cons]
          exact (List.Perm.cons _ hids).trans (List.perm_append_singleton _ _).symm
        · exact h.got
        · simp only [hcl, List.append_nil, ← hw, List.filterMap_cons]
          intro m hm r hr
          rcases List.mem_cons.1 hm with rfl | hm
          · intro _; exact hlt r hr
          · exact h.fresh m (by simpa [pending, hcl] using hm) r hr
        · exact h.order
      · cases hs
    · cases hs
    · -- hand over to a waiting receiver
      rename_i w ws hf hw
      split at hs
      · cases hs
        have hids := h.ids
        have hr0 : ∀ x ∈ s.waiter, x.2 = none := h.recvW hf
        have hfm : s.waiter.filterMap (·.2) = [] := by
          rw [List.filterMap_eq_nil_iff]; exact hr0
        have hfm' : ws.filterMap (·.2) = [] := by
          rw [List.filterMap_eq_nil_iff]; intro x hx; exact hr0 x (hw ▸ List.mem_cons_of_mem _ hx)
        simp only [pending, hcl, List.append_nil, hfm, List.nil_append] at hids
        constructor
        all_goals dsimp only [pending, suspended]
        · split <;> simp_all
        · intro hf'; split at hf'
          · cases hf'
          · rw [hf] at hf'; cases hf'
        · intro _ x hx; exact hr0 x (hw ▸ List.mem_cons_of_mem _ hx)
        · intro hc'; exact absurd hc' hc
        · intro _; exact hcl
        · intro x hx m hm
          rw [hcl, List.append_nil] at hx
          rw [hr0 x (hw ▸ List.mem_cons_of_mem _ hx)] at hm; cases hm
        · exact h.heldOwner
        · have := h.nodup
          simp only [suspended, hw, List.map_cons, List.cons_append] at this
          exact (List.nodup_cons.1 this).2
        · simp only [hcl, List.append_nil, hfm', List.nil_append, List.range_succ, List.map_append, List.map_cons,
            List.map_map]
          simp only [List.map_append, List.map_map] at hids
          exact List.perm_middle.trans ((List.Perm.cons _ hids).trans (List.perm_append_singleton _ _).symm)
        · simp only [List.map_cons, List.cons_append]
          exact List.Perm.cons _ h.got
        · simp only [hcl, List.append_nil, hfm']; simp
        · refine List.pairwise_cons.2 ⟨fun r hr _ => hlt r hr, h.order⟩
      · cases hs

theorem recv_inv (sel : Nat → Nat) {s s' : State} {f : Nat} {hold : Bool} (h : Inv s) (hb : ¬ blocked s f)
    (hs : recv sel s f hold = .ok s') : Inv s' := by
  have hb' := not_blocked hb
  unfold recv at hs
  split at hs
  · -- first receiver
    rename_i hf hw
    split at hs
    · cases hs; exact ⟨h.1, h.2, h.3, h.4, h.5, h.6, h.7, h.8, h.9, h.10, h.11, h.12⟩
    · rename_i hc
      have hcl : s.closing = [] := h.openC (by simpa using hc)
      cases hs
      have hids := h.ids
      simp only [pending, hw, hcl, List.append_nil, List.nil_append, List.filterMap_nil] at hids
      constructor
      all_goals dsimp only [pending, suspended]
      · simp
      · simp
      · simp
      · intro hc'; exact absurd hc' hc
      · intro _; exact hcl
      · simp [hcl]
      · exact h.heldOwner
      · have := h.nodup
        simp only [suspended, hw, hcl] at this hb'
        simp only [hcl]
        simp at this hb' ⊢; exact ⟨hb', this⟩
      · simpa [hcl] using hids
      · exact h.got
      · simp [hcl]
      · exact h.order
  · cases hs
  · cases hs
  · -- further receiver
    rename_i w ws hf hw
    split at hs
    · split at hs
      · cases hs; exact ⟨h.1, h.2, h.3, h.4, h.5, h.6, h.7, h.8, h.9, h.10, h.11, h.12⟩
      · rename_i hc
        have hcl : s.closing = [] := h.openC (by simpa using hc)
        cases hs
        have hids := h.ids
        constructor
        all_goals dsimp only [pending, suspended]
        · simp [hf]
        · intro hf'; rw [hf] at hf'; cases hf'
        · intro _ x hx
          rcases List.mem_cons.1 hx with rfl | hx
          · rfl
          · exact h.recvW hf x (hw ▸ hx)
        · intro hc'; exact absurd hc' hc
        · intro _; exact hcl
        · intro x hx m hm
          rw [hcl, List.append_nil] at hx
          rcases List.mem_cons.1 hx with rfl | hx
          · cases hm
          · exact h.owner x (List.mem_append.2 (.inl (hw ▸ hx))) m hm
        · exact h.heldOwner
        · have := h.nodup
          simp only [suspended, hcl] at this hb'
          simp only [hcl, ← hw]
          simp only [List.map_cons, List.cons_append, List.map_nil, List.append_nil] at *
          exact List.nodup_cons.2 ⟨hb', this⟩
        · simpa [pending, hw] using hids
        · exact h.got
        · intro m hm r hr
          exact h.fresh m (by simpa [pending, hw] using hm) r hr
        · exact h.order
    · cases hs
  · cases hs
  · -- take a waiting sender
    rename_i g m ws hf hw
    have hcl : s.closing = [] := by
      apply h.openC
      cases hc : s.closed
      · rfl
      · have := h.closedW hc; rw [this] at hw; cases hw
    have hids := h.ids
    have hown : m.sender = g := h.owner (g, some m) (by simp [hw]) m rfl
    have hP : pending s = m :: ws.filterMap (·.2) := by simp [pending, hw, hcl]
    have hfresh := h.fresh
    rw [hP] at hids hfresh
    -- other pending values have another sender
    have hnd := h.nodup
    simp only [suspended, hw, hcl, List.map_cons, List.map_nil, List.append_nil, List.cons_append,
      List.nodup_cons] at hnd
    have hother : ∀ x ∈ ws, ∀ k, x.2 = some k → k.sender ≠ g := by
      intro x hx k hk e
      have := h.owner x (by simp [hw, hx]) k hk
      apply hnd.1
      rw [List.mem_append]; left
      exact List.mem_map.2 ⟨x, hx, by rw [← this, e]⟩
    -- facts shared by the two variants
    have common : ∀ s2 : State, s2.waiter = ws → s2.flag = (if ws = [] then .noWaiter else s.flag) →
        s2.closed = s.closed → s2.closing = s.closing → s2.recvd = (f, m) :: s.recvd → s2.nsend = s.nsend →
        s2.sendClosed = s.sendClosed → (∀ w ∈ s2.held, w.2.sender = w.1) → (suspended s2).Nodup →
        (s2.recvd.map (·.2)).Perm (s2.sendRet.map (·.1) ++ s2.held.map (·.2)) → Inv s2 := by
      intro s2 e1 e2 e3 e4 e5 e6 e7 e8 e9 e10
      constructor
      · rw [e1, e2]; split <;> simp_all
      · rw [e1]; intro _ x hx; exact h.sendW hf x (by simp [hw, hx])
      · rw [e1, e2]; split
        · simp_all
        · rw [hf]; intro hf'; cases hf'
      · rw [e1, e3]; intro hc; have := h.closedW hc; rw [this] at hw; cases hw
      · rw [e3, e4]; exact h.openC
      · rw [e1, e4, hcl]
        intro x hx; rw [List.append_nil] at hx
        exact h.owner x (by simp [hw, hx])
      · exact e8
      · exact e9
      · have : pending s2 = ws.filterMap (·.2) := by simp [pending, e1, e4, hcl]
        rw [this, e5, e6, e7]
        refine List.Perm.trans ?_ hids
        apply List.Perm.map
        simp only [List.map_cons, List.cons_append]
        exact List.perm_middle
      · exact e10
      · have : pending s2 = ws.filterMap (·.2) := by simp [pending, e1, e4, hcl]
        rw [this, e5]
        intro k hk r hr
        rcases List.mem_cons.1 hr with rfl | hr
        · obtain ⟨x, hx, hxk⟩ := List.mem_filterMap.1 hk
          intro e; exact absurd (e.symm.trans hown) (hother x hx k hxk)
        · exact hfresh k (List.mem_cons_of_mem _ hk) r hr
      · rw [e5]
        refine List.pairwise_cons.2 ⟨fun r hr e => hfresh m (List.mem_cons_self ..) r hr e.symm, h.order⟩
    split at hs
    · dsimp only at hs
      split at hs
      · cases hs
        refine common _ rfl rfl rfl rfl rfl rfl rfl ?_ ?_ ?_
        · intro w hw'
          rcases List.mem_cons.1 hw' with rfl | hw'
          · exact hown
          · exact h.heldOwner w hw'
        · simp only [suspended, hcl, List.map_cons, List.map_nil, List.append_nil]
          exact List.perm_middle.nodup_iff.2 (List.nodup_cons.2 hnd)
        · simp only [List.map_cons]
          exact (List.Perm.cons _ h.got).trans List.perm_middle.symm
      · cases hs
        refine common _ rfl rfl rfl rfl rfl rfl rfl h.heldOwner ?_ ?_
        · simp only [suspended, hcl, List.map_nil, List.append_nil]
          exact hnd.2
        · simp only [List.map_cons, List.cons_append]
          exact List.Perm.cons _ h.got
    · cases hs
  · cases hs

theorem close_inv {s s' : State} {c : Nat} (h : Inv s) (hs : close s c = .ok s') : Inv s' := by
  unfold close at hs
  split at hs
  · split at hs
    · cases hs; exact h
    · cases hs
  · rename_i hc
    have hcl : s.closing = [] := h.openC (by simpa using hc)
    cases hs
    have hp : pending { s with closed := true, closer := c, closing := s.waiter, waiter := [], flag := .noWaiter }
        = pending s := by simp [pending, hcl]
    constructor
    · simp
    · simp
    · simp
    · simp
    · simp
    · intro x hx; exact h.owner x (by simpa [hcl] using hx)
    · exact h.heldOwner
    · have := h.nodup
      simpa [suspended, hcl] using this
    · rw [hp]; exact h.ids
    · exact h.got
    · rw [hp]; exact h.fresh
    · exact h.order

theorem closeStep_inv (sel : Nat → Nat) {s s' : State} (h : Inv s) (hs : closeStep sel s = .ok s') : Inv s' := by
  have hcw : s.closing ≠ [] → s.closed = true ∧ s.waiter = [] := by
    intro hne
    cases hc : s.closed
    · exact absurd (h.openC hc) hne
    · exact ⟨rfl, h.closedW hc⟩
  unfold closeStep at hs
  split at hs
  · cases hs
  · rename_i g m ws hw
    obtain ⟨hc, hwt⟩ := hcw (by simp [hw])
    split at hs
    · cases hs
      constructor
      · exact h.none_iff
      · exact h.sendW
      · exact h.recvW
      · exact h.closedW
      · intro e; rw [hc] at e; cases e
      · intro x hx; exact h.owner x (by simp only [hwt, List.nil_append] at hx ⊢; simp [hw, hx])
      · exact h.heldOwner
      · have := h.nodup
        simp only [suspended, hwt, hw, List.map_cons, List.map_nil, List.nil_append, List.cons_append] at this ⊢
        exact (List.nodup_cons.1 this).2
      · have := h.ids
        simp only [pending, hwt, hw, List.nil_append, List.filterMap_cons, List.cons_append] at this ⊢
        refine List.Perm.trans (List.Perm.map _ ?_) this
        rw [List.append_assoc, List.append_assoc]
        exact List.perm_middle
      · exact h.got
      · intro k hk r hr
        refine h.fresh k ?_ r hr
        simp only [pending, hwt, hw, List.nil_append, List.filterMap_cons] at hk ⊢
        exact List.mem_cons_of_mem _ hk
      · exact h.order
    · cases hs
  · rename_i g ws hw
    obtain ⟨hc, hwt⟩ := hcw (by simp [hw])
    split at hs
    · cases hs
      have hp : pending { s with closing := ws, recvClosed := g :: s.recvClosed } = pending s := by
        simp [pending, hwt, hw]
      constructor
      · exact h.none_iff
      · exact h.sendW
      · exact h.recvW
      · exact h.closedW
      · intro e; rw [hc] at e; cases e
      · intro x hx; exact h.owner x (by simp only [hwt, List.nil_append] at hx ⊢; simp [hw, hx])
      · exact h.heldOwner
      · have := h.nodup
        simp only [suspended, hwt, hw, List.map_cons, List.map_nil, List.nil_append, List.cons_append] at this ⊢
        exact (List.nodup_cons.1 this).2
      · rw [hp]; exact h.ids
      · exact h.got
      · rw [hp]; exact h.fresh
      · exact h.order
    · cases hs

theorem wakeup_inv {s s' : State} {f : Nat} {g : Int} (h : Inv s) (hs : wakeup s f g = .ok s') : Inv s' := by
  unfold wakeup at hs
  split at hs
  · cases hs
  · rename_i p hp
    cases hs
    have hm := List.mem_of_find?_eq_some hp
    constructor
    · exact h.none_iff
    · exact h.sendW
    · exact h.recvW
    · exact h.closedW
    · exact h.openC
    · exact h.owner
    · intro w hw; exact h.heldOwner w (List.mem_of_mem_erase hw)
    · have := h.nodup
      simp only [suspended] at this ⊢
      refine List.Nodup.sublist ?_ this
      exact List.Sublist.append (List.Sublist.refl _) (List.Sublist.map _ List.erase_sublist)
    · exact h.ids
    · have h2 : (s.held.map (·.2)).Perm (p.2 :: (s.held.erase p).map (·.2)) := by
        have := (List.perm_cons_erase hm).map (·.2)
        simpa using this
      refine h.got.trans ?_
      simp only [List.map_cons, List.cons_append]
      exact (List.Perm.append_left _ h2).trans List.perm_middle
    · exact h.fresh
    · exact h.order

theorem step_inv (sel : Nat → Nat) (s : State) (o : Op) (s' : State) (h : Inv s) (hs : step sel s o = .ok s') :
    Inv s' := by
  cases o with
  | send f d =>
    simp only [step] at hs
    split at hs
    · cases hs
    · rename_i hb; exact send_inv sel h hb hs
  | recv f d =>
    simp only [step] at hs
    split at hs
    · cases hs
    · rename_i hb; exact recv_inv sel h hb hs
  | wakeup f g => exact wakeup_inv h hs
  | close c => exact close_inv h hs
  | closeStep => exact closeStep_inv sel h hs

theorem reach_inv {sel : Nat → Nat} {s : State} (h : Reachable (step sel) init s) : Inv s :=
  h.invariant inv_init (step_inv sel)

/-- **C22.** Exactly once: for every reachable state no value is received twice; the received values are exactly
those of the sends that returned (not refused and not released by close) together with those of the senders a
receiver still holds; a send released by close was never received; and every send call that found the channel open
is in exactly one of the situations waiting / failed by close / received. -/
theorem chan_exactly_once (sel : Nat → Nat) (s : State) (h : Reachable (step sel) init s) :
    (s.recvd.map (·.2.id)).Nodup ∧
    (∀ m, s.recvd.countP (·.2 = m) = (s.sendRet.map (·.1)).count m + (s.held.map (·.2)).count m) ∧
    (∀ m g, (m, g) ∈ s.sendRet → ∃ r, (r, m) ∈ s.recvd ∧ ∀ r' m', (r', m') ∈ s.recvd → m'.id = m.id → r' = r ∧ m' = m) ∧
    (∀ m ∈ s.sendClosed, ∀ r ∈ s.recvd, r.2.id ≠ m.id) ∧
    (∀ i, i < s.nsend → ((∃ m ∈ pending s, m.id = i) ∨ (∃ m ∈ s.sendClosed, m.id = i) ∨ (∃ r ∈ s.recvd, r.2.id = i))) := by
  have hi := reach_inv h
  have hnd : ((pending s ++ s.sendClosed ++ s.recvd.map (·.2)).map (·.id)).Nodup :=
    hi.ids.nodup_iff.2 List.nodup_range
  simp only [List.map_append, List.map_map] at hnd
  have hn1 : (s.recvd.map (·.2.id)).Nodup := (List.nodup_append.1 hnd).2.1
  refine ⟨hn1, ?_, ?_, ?_, ?_⟩
  · intro m
    have := hi.got.count_eq m
    rw [List.count_append] at this
    rw [← this, List.count, List.countP_map]
    congr 1
  · intro m g hm
    have : m ∈ s.recvd.map (·.2) := hi.got.mem_iff.2 (List.mem_append.2 (.inl (List.mem_map.2 ⟨_, hm, rfl⟩)))
    obtain ⟨r, hr, e⟩ := List.mem_map.1 this
    refine ⟨r.1, by rw [← e]; exact hr, ?_⟩
    intro r' m' hr' e'
    have := nodup_map_inj hn1 hr' hr (by rw [e]; exact e')
    rw [← e, ← this]; exact ⟨rfl, rfl⟩
  · intro m hm r hr e
    have := (List.nodup_append.1 hnd).2.2 m.id
      (List.mem_append.2 (.inr (List.mem_map.2 ⟨m, hm, rfl⟩))) r.2.id (List.mem_map.2 ⟨r, hr, rfl⟩)
    exact this e.symm
  · intro i hlt
    have : i ∈ (pending s ++ s.sendClosed ++ s.recvd.map (·.2)).map (·.id) := hi.ids.mem_iff.2 (by simpa using hlt)
    simp only [List.mem_map, List.mem_append] at this
    obtain ⟨m, (hm | hm) | ⟨r, hr, e⟩, hid⟩ := this
    · exact .inl ⟨m, hm, hid⟩
    · exact .inr (.inl ⟨m, hm, hid⟩)
    · exact .inr (.inr ⟨r, hr, by rw [e]; exact hid⟩)

/-- **C22.** Values sent by one fiber are received in the order in which it sent them (`recvd` is latest first). -/
theorem chan_sender_order (sel : Nat → Nat) (s : State) (h : Reachable (step sel) init s) (f : Nat) :
    ((s.recvd.filter (fun r => r.2.sender = f)).map (·.2.id)).Pairwise (· > ·) := by
  have hi := reach_inv h
  rw [List.pairwise_map]
  have := (hi.order.filter (fun r => decide (r.2.sender = f)))
  refine List.Pairwise.imp_of_mem ?_ this
  intro a b ha hb hab
  have h1 := (List.mem_filter.1 ha).2
  have h2 := (List.mem_filter.1 hb).2
  simp only [decide_eq_true_eq] at h1 h2
  exact hab (h1.trans h2.symm)

/-- **C22.** Senders and receivers never wait at the same time. -/
theorem chan_never_both_wait (sel : Nat → Nat) (s : State) (h : Reachable (step sel) init s) :
    (∀ w ∈ s.waiter, ∃ m, w.2 = some m) ∨ (∀ w ∈ s.waiter, w.2 = none) := by
  have hi := reach_inv h
  cases hf : s.flag with
  | noWaiter => left; rw [hi.none_iff.1 hf]; simp
  | sendWaiter => exact .inl (hi.sendW hf)
  | recvWaiter => exact .inr (hi.recvW hf)

/-- **C22.** A receive with waiting senders completes at once with the value of the most recent one; a send with
waiting receivers completes at once with the most recent one. -/
theorem chan_service_order (f : Nat) (s : State) (h : Reachable (step (fun _ => 0)) init s)
    (g : Nat) (v : Option Msg) (ws : List (Nat × Option Msg)) (hw : s.waiter = (g, v) :: ws) (hb : ¬ blocked s f) :
    (∀ m, v = some m → ∀ hold, ∃ s', step (fun _ => 0) s (.recv f hold) = .ok s' ∧ s'.waiter = ws ∧
        s'.recvd = (f, m) :: s.recvd) ∧
    (v = none → ∀ d, ∃ s', step (fun _ => 0) s (.send f d) = .ok s' ∧ s'.waiter = ws ∧
        s'.recvd = (g, ⟨s.nsend, f, d⟩) :: s.recvd ∧ s'.sendRet = (⟨s.nsend, f, d⟩, 0) :: s.sendRet) := by
  have hi := reach_inv h
  have hcl : s.closed = false := by
    cases hc : s.closed
    · rfl
    · have := hi.closedW hc; rw [this] at hw; cases hw
  constructor
  · rintro m rfl hold
    have hf : s.flag = .sendWaiter := by
      cases hf : s.flag
      · rw [hi.none_iff.1 hf] at hw; cases hw
      · rfl
      · have := hi.recvW hf (g, some m) (by simp [hw]); cases this
    simp only [step, hb, if_false, recv, hf, hw]
    cases hold <;> exact ⟨_, rfl, rfl, rfl⟩
  · rintro rfl d
    have hf : s.flag = .recvWaiter := by
      cases hf : s.flag
      · rw [hi.none_iff.1 hf] at hw; cases hw
      · obtain ⟨m, hm⟩ := hi.sendW hf (g, none) (by simp [hw]); cases hm
      · rfl
    simp only [step, hb, if_false, send, hf, hw, hcl]
    exact ⟨_, rfl, rfl, rfl, rfl⟩

/-- **C22.** With all fibers on one selector no assertion of the channel code fails. -/
theorem chan_no_failure (k : Nat) (s : State) (h : Reachable (step (fun _ => k)) init s) (o : Op) :
    step (fun _ => k) s o ≠ .ub := by
  have hi := reach_inv h
  cases o with
  | send f d =>
    simp only [step]
    split
    · exact fun h => (by cases h)
    · unfold send
      split
      · exact fun h => (by cases h)
      · dsimp only
        split
        · exact fun h => (by cases h)
        · rename_i hf hw; have := hi.none_iff.1 hf; rw [this] at hw; cases hw
        · rename_i hf hw; have := hi.none_iff.2 hw; rw [hf] at this; cases this
        · simp
        · rename_i hf hw; have := hi.none_iff.2 hw; rw [hf] at this; cases this
        · simp
  | recv f hold =>
    simp only [step]
    split
    · exact fun h => (by cases h)
    · unfold recv
      split
      · split <;> exact fun h => (by cases h)
      · rename_i hf hw; have := hi.none_iff.1 hf; rw [this] at hw; cases hw
      · rename_i hf hw; have := hi.none_iff.2 hw; rw [hf] at this; cases this
      · simp only [if_true]; split <;> exact fun h => (by cases h)
      · rename_i hf hw; have := hi.none_iff.2 hw; rw [hf] at this; cases this
      · simp only [if_true]; split <;> exact fun h => (by cases h)
      · rename_i g ws hf hw; obtain ⟨m, hm⟩ := hi.sendW hf (g, none) (by simp [hw]); cases hm
  | wakeup f g =>
    simp only [step, wakeup]
    split <;> exact fun h => (by cases h)
  | close c =>
    simp only [step, close]
    split
    · rename_i hc; rw [if_pos (hi.closedW hc)]; exact fun h => (by cases h)
    · exact fun h => (by cases h)
  | closeStep =>
    simp only [step, closeStep]
    split <;> simp

/-- **C22.** On a closed channel every send and receive fails at once and has no other effect, nobody waits. -/
theorem chan_closed_refuses (sel : Nat → Nat) (s : State) (h : Reachable (step sel) init s) (hc : s.closed = true)
    (f d : Nat) (hold : Bool) (hb : ¬ blocked s f) :
    s.waiter = [] ∧
    step sel s (.send f d) = .ok { s with refused := f :: s.refused } ∧
    step sel s (.recv f hold) = .ok { s with refused := f :: s.refused } := by
  have hi := reach_inv h
  have hw := hi.closedW hc
  have hf := hi.none_iff.2 hw
  refine ⟨hw, ?_, ?_⟩
  · simp only [step, hb, if_false, send, hc, if_true]
  · simp only [step, hb, if_false, recv, hf, hw, hc, if_true]

/-- **C22.** Closing releases every waiter with failure: after `close` and as many loop iterations as there were
waiters, nobody waits, every waiting sender has failed and every waiting receiver has failed. -/
theorem chan_close_releases (k : Nat) (s : State) (h : Reachable (step (fun _ => k)) init s) (hc : s.closed = false)
    (c : Nat) :
    ∃ s', run (step (fun _ => k)) s (.close c :: List.replicate s.waiter.length .closeStep) = some s' ∧
      s'.closed = true ∧ s'.waiter = [] ∧ s'.closing = [] ∧ s'.recvd = s.recvd ∧ s'.sendRet = s.sendRet ∧
      (∀ w ∈ s.waiter, (∀ m, w.2 = some m → m ∈ s'.sendClosed) ∧ (w.2 = none → w.1 ∈ s'.recvClosed)) := by
  have hi := reach_inv h
  have hcl := hi.openC hc
  have loop : ∀ (ws : List (Nat × Option Msg)) (t : State), t.closing = ws → t.closed = true → t.waiter = [] →
      ∃ s', run (step (fun _ => k)) t (List.replicate ws.length .closeStep) = some s' ∧ s'.closed = true ∧
        s'.waiter = [] ∧ s'.closing = [] ∧ s'.recvd = t.recvd ∧ s'.sendRet = t.sendRet ∧
        (∀ m ∈ t.sendClosed, m ∈ s'.sendClosed) ∧ (∀ g ∈ t.recvClosed, g ∈ s'.recvClosed) ∧
        (∀ w ∈ ws, (∀ m, w.2 = some m → m ∈ s'.sendClosed) ∧ (w.2 = none → w.1 ∈ s'.recvClosed)) := by
    intro ws
    induction ws with
    | nil =>
      intro t h1 h2 h3
      exact ⟨t, rfl, h2, h3, h1, rfl, rfl, fun _ h => h, fun _ h => h, by simp⟩
    | cons w ws ih =>
      intro t h1 h2 h3
      obtain ⟨g, v⟩ := w
      cases v with
      | none =>
        obtain ⟨s', e, a1, a2, a3, a4, a5, a6, a7, a8⟩ :=
          ih { t with closing := ws, recvClosed := g :: t.recvClosed } rfl h2 h3
        refine ⟨s', ?_, a1, a2, a3, a4, a5, a6, fun x hx => a7 x (List.mem_cons_of_mem _ hx), ?_⟩
        · simp only [List.length_cons, List.replicate_succ, run, step, closeStep, h1, if_true]; exact e
        · intro w hw
          rcases List.mem_cons.1 hw with rfl | hw
          · exact ⟨fun m hm => (by cases hm), fun _ => a7 g (List.mem_cons_self ..)⟩
          · exact a8 w hw
      | some m =>
        obtain ⟨s', e, a1, a2, a3, a4, a5, a6, a7, a8⟩ :=
          ih { t with closing := ws, sendClosed := m :: t.sendClosed } rfl h2 h3
        refine ⟨s', ?_, a1, a2, a3, a4, a5, fun x hx => a6 x (List.mem_cons_of_mem _ hx), a7, ?_⟩
        · simp only [List.length_cons, List.replicate_succ, run, step, closeStep, h1, if_true]; exact e
        · intro w hw
          rcases List.mem_cons.1 hw with rfl | hw
          · refine ⟨fun m' hm => ?_, fun h => (by cases h)⟩
            cases hm; exact a6 m (List.mem_cons_self ..)
          · exact a8 w hw
  obtain ⟨s', e, a1, a2, a3, a4, a5, _, _, a8⟩ :=
    loop s.waiter { s with closed := true, closer := c, closing := s.waiter, waiter := [], flag := .noWaiter } rfl rfl rfl
  refine ⟨s', ?_, a1, a2, a3, a4, a5, a8⟩
  simp only [run, step, close, hc]
  exact e

/-- **Finding (C22).** Waiting senders are served last-in first-out: of two waiting senders the later one is received
first. -/
theorem chan_lifo_witness :
    ∃ s, run (step (fun _ => 0)) init [.send 1 10, .send 2 20, .recv 3 false] = some s ∧
      s.recvd = [(3, ⟨1, 2, 20⟩)] ∧ s.waiter = [(1, some ⟨0, 1, 10⟩)] := ⟨_, rfl, rfl, rfl⟩

/-- **Finding (C22).** A second fiber of another selector that uses the channel while somebody waits fails an assertion:
the channel works only between fibers of one selector. -/
theorem chan_cross_selector_fails :
    ∃ s, Reachable (step (fun f => f % 2)) init s ∧ step (fun f => f % 2) s (.recv 2 false) = .ub :=
  ⟨_, reachable_of_run (os := [.send 1 10]) rfl, rfl⟩

/-- The hypotheses above are met: a run with waiting receivers, a hand-over, a held sender and a close. -/
example : ∃ s, run (step (fun _ => 0)) init
      [.recv 1 false, .send 2 7, .send 3 8, .send 4 9, .recv 1 true, .close 5, .closeStep, .wakeup 4 0, .send 6 1] = some s ∧
    s.recvd = [(1, ⟨2, 4, 9⟩), (1, ⟨0, 2, 7⟩)] ∧ s.sendClosed = [⟨1, 3, 8⟩] ∧ s.refused = [6] ∧
    s.sendRet = [(⟨2, 4, 9⟩, 0), (⟨0, 2, 7⟩, 0)] := ⟨_, rfl, rfl, rfl, rfl, rfl⟩

end Kasync.Chan
