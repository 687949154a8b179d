import Verif.Sel.TimerLemmas

/-! # Timer theorems: C24 and the timer half of C26 -/

namespace Kasync.Sel

open Kasync.RB

/-- The tree of the code represents the abstract timers. -/
structure Sim (s : St) (σ : Spec) : Prop where
  valid : Valid s.tree
  asc : Asc s.tree.inorder
  nodup : (s.tree.inorder.map TNode.addr).Nodup
  below : ∀ n ∈ s.tree.inorder, n.addr < s.fresh
  first : s.first = s.tree.inorder.head?.map TNode.addr
  content : flat s.tree.inorder = σ.pending.insertionSort Tm.le
  firing : s.firing.map Brq.id = σ.firing.map Tm.id
  now : s.now = σ.now
  checkAt : s.checkAt = σ.checkAt
  posted : s.posted = σ.posted
  log : s.log = σ.log

theorem Sim.init : Sim {} {} where
  valid := ⟨rfl, trivial, 0, rfl⟩
  asc := List.Pairwise.nil
  nodup := List.nodup_nil
  below := by intro n hn; cases hn
  first := rfl
  content := rfl
  firing := rfl
  now := rfl
  checkAt := rfl
  posted := rfl
  log := rfl

theorem sim_add {s : St} {σ : Spec} (h : Sim s σ) (id : Nat) (msec : Int) :
    ∃ s', addTimer s id msec = .ok s' ∧ Sim s' { σ with pending := ⟨id, σ.now + msec⟩ :: σ.pending } := by
  obtain ⟨v, asc, nd, bl, fi, co, fr, nw, ck, po, lg⟩ := h
  unfold addTimer
  have hq := insertQ_ok ⟨id, s.now + msec⟩ s.fresh s.tree s.tree [] true rfl v asc (by simp [before]) (by simp [after])
    (by simp [before])
  rcases hq with ⟨t', l1, l2, f', e1, e2, e3, e4, e5, e6, e7⟩ | ⟨t', l1, x, l2, e1, e2, e4, e5, e6⟩
  · rw [e1]
    have hfirst : (if f' = true then some s.fresh else s.first) = t'.inorder.head?.map TNode.addr := by
      rw [e5, fi, e4]
      cases l1 with
      | nil => simp [e3.2 rfl]
      | cons y l1 =>
        have : f' = false := by
          cases f' with
          | false => rfl
          | true => have := e3.1 rfl; cases this
        simp [this]
    dsimp only
    rw [first_head, if_pos hfirst]
    refine ⟨_, rfl, ?_⟩
    constructor <;> dsimp only
    · exact e2
    · rw [e5]; rw [e4] at asc
      rw [Asc, List.pairwise_append] at asc ⊢
      refine ⟨asc.1, ?_, ?_⟩
      · rw [List.pairwise_cons]; exact ⟨e7, asc.2.1⟩
      · intro a ha b hb
        rcases List.mem_cons.1 hb with rfl | hb
        · exact e6 a ha
        · exact asc.2.2 a ha b hb
    · rw [e5]; rw [e4] at nd bl
      rw [List.map_append, List.map_cons, List.nodup_middle]
      rw [List.map_append] at nd
      refine List.nodup_cons.2 ⟨?_, nd⟩
      intro hm
      rw [← List.map_append, List.mem_map] at hm
      obtain ⟨y, hy, he⟩ := hm
      have := bl y hy
      dsimp only at he
      omega
    · rw [e5]; rw [e4] at bl
      intro n hn
      rcases List.mem_append.1 hn with hn | hn
      · have := bl n (List.mem_append_left _ hn); omega
      · rcases List.mem_cons.1 hn with rfl | hn
        · exact Nat.lt_succ_self _
        · have := bl n (List.mem_append_right _ hn); omega
    · exact hfirst
    · rw [List.insertionSort_cons, ← co, e4, e5, flat_append, flat_append, flat_cons, ← nw,
        orderedInsert_skip, orderedInsert_front]
      · rfl
      · intro y hy; obtain ⟨n, hn, e⟩ := mem_flat hy; have := e7 n hn; dsimp only at this ⊢; omega
      · intro y hy; obtain ⟨n, hn, e⟩ := mem_flat hy; have := e6 n hn; dsimp only at this ⊢; omega
    · exact fr
    · exact nw
    · exact ck
    · exact po
    · exact lg
  · rw [e1]
    have hfirst : s.first = t'.inorder.head?.map TNode.addr := by
      rw [e5, fi, e4]
      cases l1 <;> rfl
    dsimp only
    simp only [Bool.false_eq_true, if_false, first_head]
    rw [if_pos hfirst]
    refine ⟨_, rfl, ?_⟩
    constructor <;> dsimp only
    · exact e2
    · rw [e5]; rw [e4] at asc
      rw [Asc, List.pairwise_append, List.pairwise_cons] at asc ⊢
      refine ⟨asc.1, ⟨?_, asc.2.1.2⟩, ?_⟩
      · intro y hy; have := asc.2.1.1 y hy; dsimp only at e6 ⊢; omega
      · intro a ha b hb
        rcases List.mem_cons.1 hb with rfl | hb
        · have := asc.2.2 a ha x (by simp); dsimp only at e6 ⊢; omega
        · exact asc.2.2 a ha b (by simp [hb])
    · rw [e5]; rw [e4] at nd; simpa using nd
    · rw [e5]; rw [e4] at bl
      intro n hn
      rcases List.mem_append.1 hn with hn | hn
      · have := bl n (List.mem_append_left _ hn); omega
      · rcases List.mem_cons.1 hn with rfl | hn
        · have := bl x (by simp); dsimp only; omega
        · have := bl n (by simp [hn]); omega
    · exact hfirst
    · rw [List.insertionSort_cons, ← co, e4, e5, flat_append, flat_append, flat_cons, flat_cons, ← nw,
        orderedInsert_skip, orderedInsert_front]
      · simp only [TNode.view, List.map_cons, e6]
        rfl
      · rw [e4, Asc, List.pairwise_append, List.pairwise_cons] at asc
        intro y hy
        rcases List.mem_append.1 hy with hy | hy
        · have := mem_view hy; dsimp only at e6 ⊢; omega
        · obtain ⟨n, hn, e⟩ := mem_flat hy; have := asc.2.1.1 n hn; dsimp only at e6 ⊢; omega
      · rw [e4, Asc, List.pairwise_append, List.pairwise_cons] at asc
        intro y hy; obtain ⟨n, hn, e⟩ := mem_flat hy; have := asc.2.2 n hn x (by simp); dsimp only at e6 ⊢; omega
    · exact fr
    · exact nw
    · exact ck
    · exact po
    · exact lg

theorem sim_adjust {s : St} {σ : Spec} (h : Sim s σ) (d : Int) :
    ∃ t', adjust s d = .ok { s with tree := t' } ∧ Sim { s with tree := t' } { σ with pending := shift d σ.pending } := by
  obtain ⟨v, asc, nd, bl, fi, co, fr, nw, ck, po, lg⟩ := h
  unfold adjust
  obtain ⟨t', e1, e2, e3⟩ := adjustTree_ok d s.tree v nd
  rw [fi, e1]
  refine ⟨t', rfl, ?_⟩
  constructor <;> dsimp only
  · exact e2
  · rw [e3, Asc, List.pairwise_map]
    exact asc.imp (fun {a b} hab => by simp only [adjNode]; omega)
  · rw [e3, List.map_map]; exact nd
  · rw [e3]; intro n hn
    obtain ⟨m, hm, rfl⟩ := List.mem_map.1 hn
    exact bl m hm
  · rw [e3]; cases s.tree.inorder <;> rfl
  · rw [e3, flat_adj, co, sort_shift]
  · exact fr
  · exact nw
  · exact ck
  · exact po
  · exact lg

theorem map_id_view (n : TNode) : n.view.map Tm.id = (n.head :: n.rest).map Brq.id := by
  simp [TNode.view]

theorem flat_ids (l : List TNode) : (l.flatMap (fun n => n.head :: n.rest)).map Brq.id = (flat l).map Tm.id := by
  simp only [flat, List.map_flatMap, map_id_view]

theorem sim_step {s : St} {σ : Spec} (h : Sim s σ) (o : Op) :
    match σ.step o with
    | none => step s o = .disabled
    | some σ' => ∃ s', step s o = .ok s' ∧ Sim s' σ' := by
  cases o with
  | add id msec => exact sim_add h id msec
  | clock ms own =>
    have hn := h.now
    simp only [Spec.step, step, updateTime, hn]
    by_cases hlt : ms / 1000 < σ.now / 1000
    · simp only [hlt, if_true]
      cases own with
      | true =>
        obtain ⟨t', e1, e2⟩ := sim_adjust h (ms - σ.now)
        simp only [if_true, e1]
        exact ⟨_, rfl, { e2 with now := rfl }⟩
      | false =>
        exact ⟨_, rfl, { h with now := rfl, posted := by dsimp only; rw [h.posted] }⟩
    · simp only [hlt, if_false]
      exact ⟨_, rfl, { h with now := rfl }⟩
  | deliver =>
    have hp := h.posted
    simp only [Spec.step, step]
    cases hq : σ.posted with
    | nil => rw [hp, hq]
    | cons d ds =>
      rw [hp, hq]
      dsimp only
      obtain ⟨t', e1, e2⟩ := sim_adjust h d
      rw [e1]
      exact ⟨_, rfl, { e2 with posted := rfl }⟩
  | check =>
    have hfi := h.firing
    simp only [Spec.step, step]
    by_cases hf : σ.firing = []
    · have hf' : s.firing = [] := by rw [hf] at hfi; exact List.map_eq_nil_iff.1 hfi
      obtain ⟨v, asc, nd, bl, fi, co, fr, nw, ck, po, lg⟩ := h
      obtain ⟨t', e1, e2, e3⟩ := extractLoop_ok s.now (s.tree.size + 1) s.tree [] v nd (by rw [size_eq_length]; omega)
      rw [← fi] at e1
      obtain ⟨f1, f2⟩ := flat_take s.now s.tree.inorder asc
      simp only [hf, hf', ne_eq, not_true_eq_false, if_false, e1]
      have hsuf : t'.inorder.Sublist s.tree.inorder := by rw [e3]; exact List.dropWhile_sublist _
      refine ⟨_, rfl, ?_⟩
      constructor <;> dsimp only
      · exact e2
      · exact asc.sublist hsuf
      · exact nd.sublist (hsuf.map _)
      · intro n hn; exact bl n (hsuf.subset hn)
      · rw [e3, f2, co, sort_filter, nw]
      · rw [List.nil_append, flat_ids, f1, co, sort_filter, nw]
      · exact nw
      · exact nw
      · exact po
      · exact lg
    · have hf' : s.firing ≠ [] := by
        intro e; rw [e] at hfi; exact hf (List.map_eq_nil_iff.1 hfi.symm)
      simp [hf, hf']
  | fire =>
    have hfi := h.firing
    simp only [Spec.step, step]
    cases hf : σ.firing with
    | nil => rw [hf] at hfi; rw [List.map_eq_nil_iff.1 hfi]
    | cons b bs =>
      rw [hf] at hfi
      cases hs : s.firing with
      | nil => rw [hs] at hfi; cases hfi
      | cons c cs =>
        rw [hs, List.map_cons, List.map_cons, List.cons.injEq] at hfi
        refine ⟨_, rfl, { h with firing := hfi.2, log := ?_ }⟩
        dsimp only
        rw [h.log, hfi.1, h.checkAt]

theorem sim_run {s : St} {σ : Spec} (h : Sim s σ) (os : List Op) :
    match σ.run os with
    | none => run step s os = none
    | some σ' => ∃ s', run step s os = some s' ∧ Sim s' σ' := by
  induction os generalizing s σ with
  | nil => exact ⟨s, rfl, h⟩
  | cons o os ih =>
    have h1 := sim_step h o
    unfold Spec.run run
    cases hc : σ.step o with
    | none => rw [hc] at h1; rw [h1]
    | some σ' =>
      rw [hc] at h1
      obtain ⟨s', e1, e2⟩ := h1
      rw [e1]
      exact ih e2

/-- **C24.** The timer tree refines the specification: whatever the history of registrations, clock readings,
adjustments and checks, the code makes exactly the callbacks of the specification, in the same order and at the same
checks (the log), and still holds exactly the specification's pending and extracted timers; and a history is
possible in the code exactly when the specification allows it. -/
theorem timer_refines (ops : List Op) :
    (∀ s, run step {} ops = some s → ∃ σ, Spec.run {} ops = some σ ∧ s.log = σ.log ∧ s.now = σ.now ∧
      (pendingIds s).Perm (σ.pending.map Tm.id) ∧ s.firing.map Brq.id = σ.firing.map Tm.id) ∧
    (∀ σ, Spec.run {} ops = some σ → ∃ s, run step {} ops = some s) := by
  have h := sim_run Sim.init ops
  refine ⟨?_, ?_⟩
  · intro s hs
    split at h
    · rw [hs] at h; cases h
    · rename_i σ e
      obtain ⟨s', e1, e2⟩ := h
      rw [hs] at e1; cases e1
      refine ⟨σ, e, e2.log, e2.now, ?_, e2.firing⟩
      have : pendingIds s = (flat s.tree.inorder).map Tm.id := by
        simp only [pendingIds, flat, List.map_flatMap, map_id_view]
      rw [this, e2.content]
      exact (List.perm_insertionSort _ _).map _
  · intro σ e
    rw [e] at h
    obtain ⟨s, e1, _⟩ := h
    exact ⟨s, e1⟩

/-- **C24**, safety: in no reachable state does any operation dereference NULL or a dangling `block_first`, fail the
assertion `block_first == rb_first`, or loop on. -/
theorem timer_never_ub (s : St) (h : Reachable step {} s) (o : Op) : step s o ≠ .ub := by
  obtain ⟨ops, hr⟩ := run_of_reachable h
  have h1 := sim_run Sim.init ops
  split at h1
  · rw [hr] at h1; cases h1
  · rename_i σ e
    obtain ⟨s', e1, e2⟩ := h1
    rw [hr] at e1; cases e1
    have h2 := sim_step e2 o
    split at h2
    · rw [h2]; exact (fun h => by cases h)
    · obtain ⟨s', e3, _⟩ := h2
      rw [e3]; exact (fun h => by cases h)

/-- **C24**, `block_first` is always the tree's first node, so the check always starts with the earliest deadline. -/
theorem timer_first_is_earliest (s : St) (h : Reachable step {} s) :
    s.first = (RB.first s.tree).map (fun z => z.x.addr) ∧ Valid s.tree := by
  obtain ⟨ops, hr⟩ := run_of_reachable h
  have h1 := sim_run Sim.init ops
  split at h1
  · rw [hr] at h1; cases h1
  · obtain ⟨s', e1, e2⟩ := h1
    rw [hr] at e1; cases e1
    exact ⟨by rw [first_head]; exact e2.first, e2.valid⟩

/-! ## consequences stated on the API level -/

theorem Spec.step_ids {σ σ' : Spec} {o : Op} (h : σ.step o = some σ') :
    (σ'.log.map Fired.id ++ σ'.firing.map Tm.id ++ σ'.pending.map Tm.id).Perm
      (((registered σ.now [o]).map Tm.id) ++ (σ.log.map Fired.id ++ σ.firing.map Tm.id ++ σ.pending.map Tm.id)) := by
  cases o with
  | add id msec =>
    simp only [Spec.step, Option.some.injEq] at h; subst h
    simp only [registered, List.map_cons, List.map_nil, List.singleton_append]
    exact List.perm_middle
  | clock ms own =>
    simp only [Spec.step] at h
    have hs : ∀ d l, (shift d l).map Tm.id = l.map Tm.id := by intro d l; simp [shift]
    split at h
    · split at h <;> (simp only [Option.some.injEq] at h; subst h) <;> simp [registered, hs]
    · simp only [Option.some.injEq] at h; subst h; simp [registered]
  | deliver =>
    simp only [Spec.step] at h
    have hs : ∀ d l, (shift d l).map Tm.id = l.map Tm.id := by intro d l; simp [shift]
    split at h
    · cases h
    · simp only [Option.some.injEq] at h; subst h; simp [registered, hs]
  | check =>
    simp only [Spec.step] at h
    split at h
    · cases h
    · rename_i hf
      simp only [ne_eq, not_not] at hf
      simp only [Option.some.injEq] at h; subst h
      simp only [registered, List.map_nil, List.nil_append, hf, List.append_nil, List.append_assoc]
      refine List.Perm.append_left _ ?_
      rw [← List.map_append]
      refine List.Perm.map _ ?_
      refine ((List.perm_insertionSort Tm.le _).append_right _).trans ?_
      have : (fun t : Tm => decide (σ.now < t.due)) = (fun t : Tm => !decide (t.due ≤ σ.now)) := by
        funext t
        by_cases ht : σ.now < t.due
        · simp [ht]
        · have : t.due ≤ σ.now := by omega
          simp [ht, this]
      rw [this]
      exact List.filter_append_perm _ _
  | fire =>
    simp only [Spec.step] at h
    split at h
    · cases h
    · rename_i b bs hb
      simp only [Option.some.injEq] at h; subst h
      simp [registered, hb]

theorem registered_append (now : Int) (o : Op) (os : List Op) (σ σ' : Spec) (hn : σ.now = now) (h : σ.step o = some σ') :
    registered now (o :: os) = registered now [o] ++ registered σ'.now os := by
  subst hn
  cases o with
  | add id msec => simp only [Spec.step, Option.some.injEq] at h; subst h; rfl
  | clock ms own =>
    simp only [Spec.step] at h
    split at h
    · split at h <;> (simp only [Option.some.injEq] at h; subst h; rfl)
    · simp only [Option.some.injEq] at h; subst h; rfl
  | deliver => simp only [Spec.step] at h; split at h <;> cases h <;> rfl
  | check => simp only [Spec.step] at h; split at h <;> cases h <;> rfl
  | fire => simp only [Spec.step] at h; split at h <;> cases h <;> rfl

theorem Spec.run_ids {σ σ' : Spec} {os : List Op} (h : σ.run os = some σ') :
    (σ'.log.map Fired.id ++ σ'.firing.map Tm.id ++ σ'.pending.map Tm.id).Perm
      (((registered σ.now os).map Tm.id) ++ (σ.log.map Fired.id ++ σ.firing.map Tm.id ++ σ.pending.map Tm.id)) := by
  induction os generalizing σ with
  | nil => simp only [Spec.run, Option.some.injEq] at h; subst h; simp [registered]
  | cons o os ih =>
    simp only [Spec.run] at h
    split at h
    · cases h
    · rename_i σ1 h1
      refine (ih h).trans ?_
      refine ((Spec.step_ids h1).append_left _).trans ?_
      rw [registered_append _ o os σ σ1 rfl h1, List.map_append, ← List.append_assoc]
      exact List.Perm.append_right _ List.perm_append_comm

/-- **C24**, exactly once: at every point of every history, the callbacks already made, those extracted by the
current check and the pending timers are together exactly the registered timers, each once (also for timers
registered from callbacks). -/
theorem timer_exactly_once (ops : List Op) (s : St) (h : run step {} ops = some s) :
    (s.log.map Fired.id ++ s.firing.map Brq.id ++ pendingIds s).Perm ((registered 0 ops).map Tm.id) := by
  obtain ⟨σ, e1, e2, e3, e4, e5⟩ := (timer_refines ops).1 s h
  have := Spec.run_ids e1
  simp only [List.map_nil, List.append_nil] at this
  rw [e2, e5]
  exact (e4.append_left _).trans this

/-- what the specification keeps true while the clock does not go back -/
structure FInv (R : List Tm) (σ : Spec) : Prop where
  posted : σ.posted = []
  pending : ∀ t ∈ σ.pending, t ∈ R
  firing : ∀ t ∈ σ.firing, t ∈ R ∧ t.due ≤ σ.checkAt
  log : ∀ f ∈ σ.log, ∃ t ∈ R, t.id = f.id ∧ t.due ≤ f.at'

theorem FInv.mono {R R' : List Tm} {σ : Spec} (h : FInv R σ) (hs : ∀ t ∈ R, t ∈ R') : FInv R' σ :=
  ⟨h.posted, fun t ht => hs t (h.pending t ht), fun t ht => ⟨hs t (h.firing t ht).1, (h.firing t ht).2⟩,
    fun f hf => by obtain ⟨t, a, b⟩ := h.log f hf; exact ⟨t, hs t a, b⟩⟩

theorem FInv.step {R : List Tm} {σ σ' : Spec} {o : Op} (h : FInv R σ) (hs : σ.step o = some σ')
    (hc : ForwardClock σ.now [o]) : FInv (R ++ registered σ.now [o]) σ' := by
  obtain ⟨h1, h2, h3, h4⟩ := h
  cases o with
  | add id msec =>
    simp only [Spec.step, Option.some.injEq] at hs; subst hs
    refine ⟨h1, ?_, fun t ht => ⟨List.mem_append_left _ (h3 t ht).1, (h3 t ht).2⟩, ?_⟩
    · intro t ht
      rcases List.mem_cons.1 ht with rfl | ht
      · simp [registered]
      · exact List.mem_append_left _ (h2 t ht)
    · intro f hf; obtain ⟨t, a, b⟩ := h4 f hf; exact ⟨t, List.mem_append_left _ a, b⟩
  | clock ms own =>
    simp only [ForwardClock, and_true] at hc
    simp only [Spec.step] at hs
    rw [if_neg (by omega)] at hs
    simp only [Option.some.injEq] at hs; subst hs
    simp only [registered, List.append_nil]
    exact ⟨h1, h2, h3, h4⟩
  | deliver => simp only [Spec.step, h1] at hs; cases hs
  | check =>
    simp only [Spec.step] at hs
    split at hs
    · cases hs
    · simp only [Option.some.injEq] at hs; subst hs
      simp only [registered, List.append_nil]
      refine ⟨h1, fun t ht => h2 t (List.mem_filter.1 ht).1, ?_, h4⟩
      intro t ht
      have ht := (List.mem_insertionSort _).1 ht
      have := List.mem_filter.1 ht
      exact ⟨h2 t this.1, by simpa using this.2⟩
  | fire =>
    simp only [Spec.step] at hs
    split at hs
    · cases hs
    · rename_i b bs hb
      simp only [Option.some.injEq] at hs; subst hs
      simp only [registered, List.append_nil]
      refine ⟨h1, h2, fun t ht => h3 t (by rw [hb]; simp [ht]), ?_⟩
      intro f hf
      rcases List.mem_append.1 hf with hf | hf
      · exact h4 f hf
      · rw [List.mem_singleton] at hf; subst hf
        have := h3 b (by rw [hb]; simp)
        exact ⟨b, this.1, rfl, this.2⟩

theorem forward_cons (now : Int) (o : Op) (os : List Op) (σ σ' : Spec) (hn : σ.now = now) (h : σ.step o = some σ')
    (hc : ForwardClock now (o :: os)) : ForwardClock now [o] ∧ ForwardClock σ'.now os := by
  subst hn
  cases o with
  | add id msec => simp only [Spec.step, Option.some.injEq] at h; subst h; exact ⟨trivial, hc⟩
  | clock ms own =>
    simp only [Spec.step] at h
    have : σ'.now = ms := by
      split at h
      · split at h <;> (simp only [Option.some.injEq] at h; subst h; rfl)
      · simp only [Option.some.injEq] at h; subst h; rfl
    rw [this]; exact ⟨⟨hc.1, trivial⟩, hc.2⟩
  | deliver =>
    simp only [Spec.step] at h
    split at h <;> cases h <;> exact ⟨trivial, hc⟩
  | check =>
    simp only [Spec.step] at h
    split at h <;> cases h <;> exact ⟨trivial, hc⟩
  | fire =>
    simp only [Spec.step] at h
    split at h <;> cases h <;> exact ⟨trivial, hc⟩

theorem FInv.run {R : List Tm} {σ σ' : Spec} {os : List Op} (h : FInv R σ) (hs : σ.run os = some σ')
    (hc : ForwardClock σ.now os) : FInv (R ++ registered σ.now os) σ' := by
  induction os generalizing R σ with
  | nil => simp only [Spec.run, Option.some.injEq] at hs; subst hs; simpa [registered] using h
  | cons o os ih =>
    simp only [Spec.run] at hs
    split at hs
    · cases hs
    · rename_i σ1 h1
      obtain ⟨c1, c2⟩ := forward_cons _ o os σ σ1 rfl h1 hc
      have := ih (h.step h1 c1) hs c2
      rw [registered_append _ o os σ σ1 rfl h1, ← List.append_assoc]
      exact this

theorem FInv.init : FInv [] {} :=
  ⟨rfl, fun _ h => (by cases h), fun _ h => (by cases h), fun _ h => (by cases h)⟩

/-- **C24**, never early: while the wall clock does not go back, a timer's callback is made only by a check whose
clock had reached registration time + delay. -/
theorem timer_never_early (ops : List Op) (hc : ForwardClock 0 ops) (s : St) (h : run step {} ops = some s)
    (f : Fired) (hf : f ∈ s.log) : ∃ t ∈ registered 0 ops, t.id = f.id ∧ t.due ≤ f.at' := by
  obtain ⟨σ, e1, e2, _⟩ := (timer_refines ops).1 s h
  have := FInv.init.run e1 hc
  rw [List.nil_append] at this
  exact this.log f (e2 ▸ hf)

theorem Spec.run_append (σ : Spec) (a b : List Op) : σ.run (a ++ b) = (σ.run a).bind (fun σ' => σ'.run b) := by
  induction a generalizing σ with
  | nil => rfl
  | cons o a ih =>
    simp only [List.cons_append, Spec.run]
    cases σ.step o with
    | none => rfl
    | some σ' => exact ih σ'

/-- **C24**, never late: while the wall clock does not go back, after a check at clock `t` every registered timer
that still waits has a deadline beyond `t`; all the others have been called or are being called by this check. -/
theorem timer_fires_at_first_due_check (ops : List Op) (hc : ForwardClock 0 ops) (s : St)
    (h : run step {} (ops ++ [.check]) = some s) (i : Nat) (hi : i ∈ pendingIds s) :
    ∃ t ∈ registered 0 ops, t.id = i ∧ s.now < t.due := by
  obtain ⟨σ, e1, e2, e3, e4, e5⟩ := (timer_refines _).1 s h
  rw [Spec.run_append] at e1
  cases hm : Spec.run {} ops with
  | none => rw [hm] at e1; cases e1
  | some σ1 =>
    rw [hm] at e1
    have inv := FInv.init.run hm hc
    rw [List.nil_append] at inv
    simp only [Option.bind_some, Spec.run, Spec.step] at e1
    split at e1
    · cases e1
    · rename_i σ2 h2
      split at h2
      · cases h2
      · simp only [Option.some.injEq] at h2 e1; subst h2; subst e1
        have hi' := e4.mem_iff.1 hi
        obtain ⟨t, ht, hid⟩ := List.mem_map.1 hi'
        have := List.mem_filter.1 ht
        exact ⟨t, inv.pending t this.1, hid, by rw [e3]; simpa using this.2⟩

/-- **C24**, order within a check: the timers extracted by a check are called in deadline order, and of equal
deadlines the one registered last is called first. The extracted list determines the calls: `fire` takes its head. -/
theorem timer_check_order (ops : List Op) (s : St) (h : run step {} (ops ++ [.check]) = some s) :
    ∃ (σ : Spec) (due : List Tm), Spec.run {} ops = some σ ∧ s.firing.map Brq.id = due.map Tm.id ∧
      due.Pairwise (fun a b => a.due ≤ b.due) ∧ due.Perm (σ.pending.filter (fun t => decide (t.due ≤ σ.now))) ∧
      ∀ d, due.filter (fun t => decide (t.due = d)) =
        (σ.pending.filter (fun t => decide (t.due ≤ σ.now))).filter (fun t => decide (t.due = d)) := by
  obtain ⟨σ, e1, e2, e3, e4, e5⟩ := (timer_refines _).1 s h
  rw [Spec.run_append] at e1
  cases hm : Spec.run {} ops with
  | none => rw [hm] at e1; cases e1
  | some σ1 =>
    rw [hm] at e1
    simp only [Option.bind_some, Spec.run, Spec.step] at e1
    split at e1
    · cases e1
    · rename_i σ2 h2
      split at h2
      · cases h2
      · simp only [Option.some.injEq] at h2 e1; subst h2; subst e1
        refine ⟨σ1, _, rfl, e5, sort_sorted _, List.perm_insertionSort _ _, ?_⟩
        intro d
        rw [← sort_filter]
        refine List.Pairwise.insertionSort_eq ?_
        refine List.Pairwise.imp_of_mem (R := fun _ _ => True) ?_ (List.pairwise_of_forall (fun _ _ => trivial))
        intro a b ha hb _
        have ha := (List.mem_filter.1 ha).2
        have hb := (List.mem_filter.1 hb).2
        simp only [decide_eq_true_eq] at ha hb
        simp only [Tm.le]; omega

/-- **C26**, timers: when the selector's own clock update finds that the wall clock went back (by a second or more), every pending timer keeps
its remaining time; the order of pending timers is unchanged. -/
theorem clock_jump_keeps_remaining (ops : List Op) (ms : Int) (s s' : St)
    (h : run step {} ops = some s) (hj : ms / 1000 < s.now / 1000) (h' : step s (.clock ms true) = .ok s') :
    pendingIds s' = pendingIds s ∧ s'.now = ms ∧
      s'.tree.inorder.map (fun n => n.head.active - s'.now) = s.tree.inorder.map (fun n => n.head.active - s.now) := by
  have h1 := sim_run Sim.init ops
  split at h1
  · rw [h] at h1; cases h1
  · obtain ⟨s1, e1, sim⟩ := h1
    rw [h] at e1; cases e1
    simp only [step, updateTime, hj, if_true] at h'
    unfold adjust at h'
    obtain ⟨t', a1, a2, a3⟩ := adjustTree_ok (ms - s.now) s.tree sim.valid sim.nodup
    rw [← sim.first] at a1
    rw [a1] at h'
    cases h'
    refine ⟨?_, rfl, ?_⟩
    · simp only [pendingIds, a3, List.flatMap_map, adjNode]; rfl
    · dsimp only
      rw [a3, List.map_map]
      congr 1
      funext n
      simp only [Function.comp, adjNode]
      omega

/-! ## Non-vacuity and findings -/

/-- A history with equal deadlines, a timer registered from a callback and one not yet due. -/
def demoTimers : List Op :=
  [.clock 5000 true, .add 1 30, .add 2 10, .add 3 30, .add 4 50, .add 5 20, .clock 5030 true, .check, .fire, .add 6 0,
   .fire, .fire, .fire, .check, .fire]

example : ForwardClock 0 demoTimers := by simp [ForwardClock, demoTimers]

example : (run step {} demoTimers).map (fun s => (s.log, pendingIds s)) =
    some ([⟨2, 5030⟩, ⟨5, 5030⟩, ⟨3, 5030⟩, ⟨1, 5030⟩, ⟨6, 5030⟩], [4]) := by rfl

/-- the clock goes back by an hour: the timer still needs its full remaining time -/
example : (run step {} [.clock 3600000 true, .add 1 10, .add 2 10, .clock 5000 true, .check, .clock 5010 true, .check, .fire, .fire]).map
    (fun s => s.log) = some [⟨2, 5010⟩, ⟨1, 5010⟩] := by rfl

/-- **Finding (C26).** When another thread updates the global clock, the adjustment reaches this selector as a posted
message; a timer registered in between has been computed from the new clock and is moved again: here a 2000 ms timer
is called at once. -/
theorem posted_adjust_fires_new_timer_early :
    (run step {} [.clock 3600000 true, .clock 3500000 false, .add 1 2000, .deliver, .check, .fire]).map (fun s => s.log) =
      some [⟨1, 3500000⟩] := by rfl

/-- **Finding (C26).** A step back within one second is not adjusted at all: the remaining time grows. -/
theorem small_step_back_not_adjusted :
    (run step {} [.clock 1900 true, .add 1 10, .clock 1000 true, .clock 1909 true, .check]).map (fun s => (s.firing.length, s.now)) =
      some (0, 1909) := by rfl

end Kasync.Sel
