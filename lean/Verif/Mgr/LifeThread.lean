import Verif.Mgr.LifeStep

/-! # The life of each thread (C59) -/

namespace Kasync.Mlife

theorem life_append (x : Nat) (a b : List Ev) : life x (a ++ b) = life x a ++ life x b := by simp [life]

theorem hooks_append (a b : List Ev) : hooks (a ++ b) = hooks b ++ hooks a := by simp [hooks, List.filterMap_append]

def AllRan (x : Nat) (rs : List Ev) : Prop := ∀ e ∈ rs, ∃ id, e = .ran x id

/-- what has happened on the thread, by phase -/
def PhOk (x : Nat) (hk : List Nat) (l : List Ev) : Phase → Prop
  | .none | .posted => l = []
  | .init rest => ∃ done, hk = done ++ rest ∧ l = .born x :: done.map (fun id => .hook x id 0)
  | .loop => ∃ rs, AllRan x rs ∧ l = .born x :: hk.map (fun id => .hook x id 0) ++ rs
  | .exit rest => ∃ rs done, AllRan x rs ∧ hk = done ++ rest ∧ l = .born x :: hk.map (fun id => .hook x id 0) ++ rs ++ done.map (fun id => .hook x id 1)
  | .gone => ∃ rs, AllRan x rs ∧ l = .born x :: hk.map (fun id => .hook x id 0) ++ rs ++ hk.map (fun id => .hook x id 1) ++ [.died x]

structure TL (s : St) : Prop where
  ph : ∀ x, PhOk x s.tinit (life x s.hist) (s.sel x).phase
  hk : hooks s.hist = s.tinit
  fir : ∀ x, (s.sel x).firing ≠ [] → (s.sel x).phase = .loop

theorem phOk_life {x : Nat} {hk : List Nat} {l : List Ev} {p : Phase} (h : PhOk x hk l p) : LifeOk x hk l := by
  cases p with
  | none => exact ⟨[], by simp, by rw [show l = [] from h]; exact List.nil_prefix⟩
  | posted => exact ⟨[], by simp, by rw [show l = [] from h]; exact List.nil_prefix⟩
  | init rest =>
    obtain ⟨done, h1, h2⟩ := h
    refine ⟨[], by simp, ?_⟩
    rw [h2, h1, List.map_append]
    exact ⟨rest.map (fun id => .hook x id 0) ++ [] ++ (done.map (fun id => .hook x id 1) ++ rest.map (fun id => .hook x id 1)) ++ [.died x], by simp⟩
  | loop =>
    obtain ⟨rs, h1, h2⟩ := h
    refine ⟨rs, h1, ?_⟩
    rw [h2]
    exact ⟨hk.map (fun id => .hook x id 1) ++ [.died x], by simp⟩
  | exit rest =>
    obtain ⟨rs, done, h1, h2, h3⟩ := h
    refine ⟨rs, h1, ?_⟩
    rw [h3]
    refine ⟨rest.map (fun id => .hook x id 1) ++ [.died x], ?_⟩
    have : hk.map (fun id => Ev.hook x id 1) = done.map (fun id => .hook x id 1) ++ rest.map (fun id => .hook x id 1) := by rw [h2, List.map_append]
    rw [this]; simp
  | gone =>
    obtain ⟨rs, h1, h2⟩ := h
    exact ⟨rs, h1, by rw [h2]; exact List.prefix_rfl⟩

/-- nothing happens to threads -/
theorem tl_same {s t : St} (h : TL s) (hp : ∀ x, (t.sel x).phase = (s.sel x).phase) (hf : ∀ x, (t.sel x).firing = (s.sel x).firing) (ht : t.tinit = s.tinit)
    {e : List Ev} (hh : t.hist = s.hist ++ e) (he : ∀ v ∈ e, v.on = none ∧ ∀ i, v ≠ .threadInit i true) : TL t := by
  have h1 : ∀ x, life x e = [] := by
    intro x; unfold life; rw [List.filter_eq_nil_iff]; intro v hv; rw [(he v hv).1]; simp
  have h2 : hooks e = [] := by
    unfold hooks; rw [List.reverse_eq_nil_iff, List.filterMap_eq_nil_iff]; intro v hv
    have := (he v hv).2
    cases v with
    | threadInit i b => cases b with
      | true => exact absurd rfl (this i)
      | false => rfl
    | _ => rfl
  exact ⟨fun x => by rw [hp, ht, hh, life_append, h1, List.append_nil]; exact h.ph x, by rw [hh, hooks_append, h2, ht]; exact h.hk, fun x => by rw [hp, hf]; exact h.fir x⟩

/-- something happens to the thread of `x` -/
theorem tl_one {s t : St} (h : TL s) {x : Nat} (hs : ∀ y, y ≠ x → (t.sel y).phase = (s.sel y).phase ∧ (t.sel y).firing = (s.sel y).firing) (ht : t.tinit = s.tinit)
    {e : List Ev} (hh : t.hist = s.hist ++ e) (he : ∀ v ∈ e, v.on = some x ∧ ∀ i, v ≠ .threadInit i true)
    (hp : PhOk x s.tinit (life x s.hist ++ e) (t.sel x).phase) (hf : (t.sel x).firing ≠ [] → (t.sel x).phase = .loop) : TL t := by
  have h1 : ∀ y, y ≠ x → life y e = [] := by
    intro y hy; unfold life; rw [List.filter_eq_nil_iff]; intro v hv; rw [(he v hv).1]; simpa using fun h => hy h.symm
  have h1' : life x e = e := by
    unfold life; rw [List.filter_eq_self]; intro v hv; rw [(he v hv).1]; simp
  have h2 : hooks e = [] := by
    unfold hooks; rw [List.reverse_eq_nil_iff, List.filterMap_eq_nil_iff]; intro v hv
    have := (he v hv).2
    cases v with
    | threadInit i b => cases b with
      | true => exact absurd rfl (this i)
      | false => rfl
    | _ => rfl
  refine ⟨fun y => ?_, by rw [hh, hooks_append, h2, ht]; exact h.hk, fun y => ?_⟩
  · by_cases hy : y = x
    · subst hy; rw [ht, hh, life_append, h1']; exact hp
    · rw [(hs y hy).1, ht, hh, life_append, h1 y hy, List.append_nil]; exact h.ph y
  · by_cases hy : y = x
    · subst hy; exact hf
    · rw [(hs y hy).1, (hs y hy).2]; exact h.fir y

macro "tls" h:ident : tactic => `(tactic| (
  refine tl_same $h (fun y => ?_) (fun y => ?_) rfl (e := []) (by simp [St.upd]) (by simp)
  all_goals (simp only [St.upd]; repeat' split)
  all_goals rfl))

theorem tl_start : TL start := ⟨fun _ => rfl, rfl, fun _ h => absurd rfl h⟩

theorem tl_step {md : Bool} {s t : St} {o : Op} (hi : Inv s) (h : TL s) (hs : step md s o = .ok t) : TL t := by
  have ho := hi.2
  cases o with
  | onReady pick =>
    simp only [step] at hs
    split at hs
    · cases hs; exact tl_same h (fun _ => rfl) (fun _ => rfl) rfl rfl (by simp [Ev.on])
    · split at hs
      · have := post_ok hs; subst this
        refine tl_same h (fun y => ?_) (fun y => ?_) rfl rfl (by simp [Ev.on]) <;> (simp only [St.upd]; split <;> rfl)
      · cases hs
  | onReadyTest =>
    simp only [step] at hs
    split at hs
    · cases hs; exact tl_same h (fun _ => rfl) (fun _ => rfl) rfl rfl (by simp [Ev.on])
    · cases hs
  | onReadyAdd id =>
    simp only [step] at hs
    split at hs
    · cases hs; exact tl_same h (fun _ => rfl) (fun _ => rfl) rfl (e := []) (by simp) (by simp)
    · cases hs
  | addTimer msec pick =>
    simp only [step] at hs
    split at hs
    · cases hs; exact tl_same h (fun _ => rfl) (fun _ => rfl) rfl rfl (by simp [Ev.on])
    · split at hs
      · have := post_ok hs; subst this
        refine tl_same h (fun y => ?_) (fun y => ?_) rfl rfl (by simp [Ev.on]) <;> (simp only [St.upd]; split <;> rfl)
      · cases hs
  | addTimerTs here x msec =>
    simp only [step] at hs
    split at hs
    · cases hs
    · split at hs
      · cases hs
        refine tl_same h (fun y => ?_) (fun y => ?_) rfl rfl (by simp [Ev.on]) <;> (simp only [St.upd]; split <;> rfl)
      · have := post_ok hs; subst this
        refine tl_same h (fun y => ?_) (fun y => ?_) rfl rfl (by simp [Ev.on]) <;> (simp only [St.upd]; split <;> rfl)
  | addTimerHere x msec =>
    simp only [step] at hs
    split at hs
    · cases hs
    · split at hs
      · cases hs
        exact tl_same h (fun _ => rfl) (fun _ => rfl) rfl (e := [.timer s.next msec, .refused s.next]) (by simp [St.log]) (by simp [Ev.on])
      · cases hs
        refine tl_same h (fun y => ?_) (fun y => ?_) rfl rfl (by simp [Ev.on]) <;> (simp only [St.upd]; split <;> rfl)
  | threadInit id =>
    simp only [step] at hs
    split at hs
    · rename_i hn
      cases hs
      have hnr : ∀ x, s.inRange x = false := by intro x; simp [St.inRange, hn]
      refine ⟨fun x => ?_, ?_, h.fir⟩
      · obtain ⟨⟨k, hk⟩, _⟩ := ho x (hnr x)
        have h1 := h.ph x
        have e : life x [Ev.threadInit id true] = [] := rfl
        simp only [St.log, life_append, e, List.append_nil]
        rw [hk] at h1 ⊢
        exact h1
      · simp only [St.log]; rw [hooks_append, h.hk]; rfl
    · cases hs
      exact tl_same h (fun _ => rfl) (fun _ => rfl) rfl rfl (by simp [Ev.on])
  | init size picks =>
    simp only [step] at hs
    split at hs
    · cases hs
    · split at hs
      · cases hs
        obtain ⟨h1, h2, h3, h4, h5, h6⟩ := drain_other s.ready picks s
        exact tl_same h (fun y => (h6 y).1) (fun y => (h6 y).2.2.1) h5 (e := []) (by simp [h1]) (by simp)
      · cases hs
  | grow here size =>
    simp only [step] at hs
    split at hs
    · cases hs
    · split at hs
      · cases hs; exact h
      · split at hs
        · cases hs; exact h
        · cases hs; exact tl_same h (fun _ => rfl) (fun _ => rfl) rfl (e := []) (by simp) (by simp)
  | start x =>
    simp only [step] at hs
    split at hs
    · rename_i hc; cases hs
      have h1 := h.ph x
      rw [hc.2] at h1
      refine tl_one h (x := x) (fun y hy => by rw [upd_ne y hy]; exact ⟨rfl, rfl⟩) rfl (e := []) (by simp [St.upd]) (by simp) ?_ ?_
      · rw [upd_eq, show life x s.hist = [] from h1]; rfl
      · rw [upd_eq]; intro hf; have := h.fir x hf; rw [hc.2] at this; cases this
    · cases hs
  | born x =>
    simp only [step] at hs
    split at hs
    · rename_i hc
      split at hs
      · cases hs
      · cases hs
        have h1 := h.ph x
        rw [hc] at h1
        refine tl_one h (x := x) (fun y hy => by rw [upd_ne y hy]; exact ⟨rfl, rfl⟩) rfl rfl (by simp [Ev.on]) ?_ ?_
        · rw [upd_eq, show life x s.hist = [] from h1]; exact ⟨[], rfl, rfl⟩
        · rw [upd_eq]; intro hf; have := h.fir x hf; rw [hc] at this; cases this
    · cases hs
  | hook x =>
    simp only [step] at hs
    split at hs
    · rename_i hc; cases hs
      have h1 := h.ph x
      rw [hc] at h1
      obtain ⟨done, h2, h3⟩ := h1
      refine tl_one h (x := x) (fun y hy => by rw [upd_ne y hy]; exact ⟨rfl, rfl⟩) rfl (e := []) (by simp [St.upd]) (by simp) ?_ ?_
      · rw [upd_eq, h3]; rw [List.append_nil] at h2; rw [← h2]; exact ⟨[], by simp [AllRan], by simp⟩
      · rw [upd_eq]; intro _; rfl
    · rename_i id r hc; cases hs
      have h1 := h.ph x
      rw [hc] at h1
      obtain ⟨done, h2, h3⟩ := h1
      refine tl_one h (x := x) (fun y hy => by rw [upd_ne y hy]; exact ⟨rfl, rfl⟩) rfl rfl (by simp [Ev.on]) ?_ ?_
      · rw [upd_eq, h3]; exact ⟨done ++ [id], by simp [h2], by simp⟩
      · rw [upd_eq]; intro hf; have := h.fir x hf; rw [hc] at this; cases this
    · rename_i hc; cases hs
      have h1 := h.ph x
      rw [hc] at h1
      obtain ⟨rs, done, h0, h2, h3⟩ := h1
      refine tl_one h (x := x) (fun y hy => by rw [upd_ne y hy]; exact ⟨rfl, rfl⟩) rfl rfl (by simp [Ev.on]) ?_ ?_
      · rw [upd_eq, h3]; rw [List.append_nil] at h2; rw [← h2]; exact ⟨rs, h0, rfl⟩
      · rw [upd_eq]; intro hf; have := h.fir x hf; rw [hc] at this; cases this
    · rename_i id r hc; cases hs
      have h1 := h.ph x
      rw [hc] at h1
      obtain ⟨rs, done, h0, h2, h3⟩ := h1
      refine tl_one h (x := x) (fun y hy => by rw [upd_ne y hy]; exact ⟨rfl, rfl⟩) rfl rfl (by simp [Ev.on]) ?_ ?_
      · rw [upd_eq, h3]; exact ⟨rs, done ++ [id], h0, by simp [h2], by simp⟩
      · rw [upd_eq]; intro hf; have := h.fir x hf; rw [hc] at this; cases this
    · cases hs
  | handle x pick =>
    simp only [step] at hs
    split at hs
    · cases hs
    · rename_i hc
      have hp : (s.sel x).phase = .loop := by
        cases e : decide ((s.sel x).phase = .loop) with
        | true => simpa using e
        | false => exact absurd (.inl (by simpa using e)) hc
      split at hs
      · cases hs
      · rename_i m r hb
        split at hs
        · cases hs
        · split at hs
          · rename_i id; cases hs
            have h1 := h.ph x
            rw [hp] at h1
            obtain ⟨rs, h2, h3⟩ := h1
            refine tl_one h (x := x) (fun y hy => by simp [doRan, St.log, St.upd, hy]) rfl rfl (by simp [Ev.on]) ?_ ?_
            · simp only [doRan, St.log, upd_eq, hp, h3]
              exact ⟨rs ++ [.ran x id], by intro e he; rcases List.mem_append.1 he with he | he; exact h2 e he; exact ⟨id, by simpa using he⟩, by simp⟩
            · simp only [doRan, St.log, upd_eq, hp]; intro _; trivial
          · cases hs; tls h
          · split at hs
            · have := post_ok hs; subst this; tls h
            · cases hs
          · cases hs; tls h
  | check x =>
    simp only [step] at hs
    split at hs
    · cases hs
    · rename_i hc
      have hp : (s.sel x).phase = .loop := by
        cases e : decide ((s.sel x).phase = .loop) with
        | true => simpa using e
        | false => exact absurd (.inl (by simpa using e)) hc
      split at hs
      · cases hs
      · cases hs
        refine tl_one h (x := x) (fun y hy => by rw [upd_ne y hy]; exact ⟨rfl, rfl⟩) rfl (e := []) (by simp [St.upd]) (by simp) ?_ ?_
        · rw [upd_eq]; simpa using h.ph x
        · rw [upd_eq]; intro _; exact hp
  | fire x =>
    simp only [step] at hs
    split at hs
    · cases hs
    · rename_i id r hf
      have hp : (s.sel x).phase = .loop := h.fir x (by rw [hf]; simp)
      cases hs
      have h1 := h.ph x
      rw [hp] at h1
      obtain ⟨rs, h2, h3⟩ := h1
      refine tl_one h (x := x) (fun y hy => by simp [doRan, St.log, St.upd, hy]) rfl rfl (by simp [Ev.on]) ?_ ?_
      · simp only [doRan, St.log, upd_eq, hp, h3]
        exact ⟨rs ++ [.ran x id], by intro e he; rcases List.mem_append.1 he with he | he; exact h2 e he; exact ⟨id, by simpa using he⟩, by simp⟩
      · simp only [doRan, St.log, upd_eq, hp]; intro _; trivial
  | setCount x k => simp only [step] at hs; cases hs; tls h
  | update here t' =>
    simp only [step] at hs
    split at hs
    · cases hs
    · split at hs
      · split at hs
        · cases hs
        · cases hs
          refine tl_same h (fun y => ?_) (fun y => ?_) rfl rfl (by simp [Ev.on])
          all_goals (simp only [adjust, St.log]; repeat' split)
          all_goals rfl
      · cases hs
        exact tl_same h (fun _ => rfl) (fun _ => rfl) rfl rfl (by simp [Ev.on])
  | shutdown =>
    simp only [step] at hs
    cases hs
    refine tl_same h (fun y => ?_) (fun y => ?_) rfl rfl (by simp [Ev.on]) <;> (dsimp only; split <;> rfl)
  | close =>
    simp only [step] at hs
    cases hs
    refine tl_same h (fun y => ?_) (fun y => ?_) rfl (e := []) (by simp) (by simp) <;> (dsimp only; split <;> rfl)
  | leave x =>
    simp only [step] at hs
    split at hs
    · cases hs
    · rename_i hc
      have hp : (s.sel x).phase = .loop := by
        cases e : decide ((s.sel x).phase = .loop) with
        | true => simpa using e
        | false => exact absurd (.inl (by simpa using e)) hc
      have hf : (s.sel x).firing = [] := by
        cases hf : (s.sel x).firing with
        | nil => rfl
        | cons a l => rw [hf] at hc; simp at hc
      split at hs
      · cases hs
        have h1 := h.ph x
        rw [hp] at h1
        obtain ⟨rs, h2, h3⟩ := h1
        refine tl_one h (x := x) (fun y hy => by rw [upd_ne y hy]; exact ⟨rfl, rfl⟩) rfl (e := []) (by simp [St.upd]) (by simp) ?_ ?_
        · rw [upd_eq, h3]; exact ⟨rs, [], h2, by simp, by simp⟩
        · rw [upd_eq]; intro h'; exact absurd hf h'
      · cases hs
  | destroy x =>
    simp only [step] at hs
    split at hs
    · cases hs; tls h
    · cases hs

theorem tl_reach {md : Bool} {s : St} (h : Reachable (step md) start s) : TL s :=
  (h.invariant (P := fun s => Inv s ∧ TL s) ⟨inv_start, tl_start⟩ (fun _ _ _ hi hs => ⟨inv_step hi.1 hs, tl_step hi.1 hi.2 hs⟩)).2

end Kasync.Mlife
