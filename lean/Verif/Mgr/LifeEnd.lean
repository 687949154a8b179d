import Verif.Mgr.LifeTime3

/-! # Shutting down, settling (C59) -/

namespace Kasync.Mlife

/-- what a step adds to the history -/
theorem hist_step {md : Bool} {s t : St} {o : Op} (hs : step md s o = .ok t) : ∃ e, t.hist = s.hist ++ e ∧ ∀ x i, Ev.ran x i ∈ e → e = [.ran x i] := by
  have hpost : ∀ {a b : St} {x m}, post a x m = .ok b → b.hist = a.hist := by intro a b x m h; rw [post_ok h]; rfl
  have nilE : ∀ {l : List Ev}, l = s.hist → ∃ e, l = s.hist ++ e ∧ ∀ x i, Ev.ran x i ∈ e → e = [.ran x i] := by
    intro l h; exact ⟨[], by simp [h], by simp⟩
  have oneE : ∀ (v : Ev) {l : List Ev}, l = s.hist ++ [v] → ∃ e, l = s.hist ++ e ∧ ∀ x i, Ev.ran x i ∈ e → e = [.ran x i] := by
    intro v l h; exact ⟨[v], h, by intro x i hm; simp at hm; rw [hm]⟩
  cases o <;> simp only [step] at hs <;> repeat' split at hs
  all_goals first
    | cases hs; done
    | (cases hs; exact nilE rfl)
    | (cases hs; exact oneE _ rfl)
    | (exact nilE (hpost hs))
    | (exact oneE _ (hpost hs))
    | (cases hs; exact nilE (drain_other _ _ _).1)
    | (cases hs; exact ⟨[.timer s.next _, .refused s.next], List.append_assoc _ _ _, by simp⟩)
    | exact nilE ((hpost hs).trans rfl)

/-- a callback is asked for before it is called -/
def Before (h : List Ev) : Prop := ∀ h1 x i h2, h = h1 ++ .ran x i :: h2 → Ev.onReady i ∈ h1 ∨ ∃ m, Ev.timer i m ∈ h1

theorem before_step {md : Bool} {s t : St} {o : Op} (hi : Inv s) (hb : Before s.hist) (hs : step md s o = .ok t) : Before t.hist := by
  obtain ⟨⟨loc, hl⟩, _⟩ := inv_step hi hs
  obtain ⟨e, he, hr⟩ := hist_step hs
  intro h1 x i h2 hh
  by_cases hm : Ev.ran x i ∈ e
  · have := hr x i hm; subst this
    rw [he] at hh
    rcases snoc_split hh with ⟨_, rfl, _⟩ | ⟨c', _, h⟩
    · have hq := hl.req i (by rw [(hl.ran i).1 (by rw [he, runs_append]; simp)]; simp)
      rw [he] at hq
      simpa using hq
    · exact hb h1 x i c' h
  · rw [he] at hh
    rcases List.append_eq_append_iff.1 hh with ⟨a, ha, hc⟩ | ⟨a, ha, hc⟩
    · exact absurd (by rw [hc]; simp) hm
    · cases a with
      | nil => exact absurd (by simp at hc; rw [← hc]; simp) hm
      | cons b a =>
        simp only [List.cons_append, List.cons.injEq] at hc
        obtain ⟨rfl, rfl⟩ := hc
        exact hb h1 x i a ha

theorem before_reach {md : Bool} {s : St} (h : Reachable (step md) start s) : Inv s ∧ Before s.hist :=
  h.invariant (P := fun s => Inv s ∧ Before s.hist) ⟨inv_start, by intro h1 x i h2 h; simp [start] at h⟩
    (fun _ _ _ hi hs => ⟨inv_step hi.1 hs, before_step hi.1 hi.2 hs⟩)

/-! ## Nothing is used after it is destroyed -/

structure InvJ (s : St) : Prop where
  des : ∀ x, (s.sel x).destroyed = true → s.inRange x = true ∧ ((s.sel x).phase = .none ∨ (s.sel x).phase = .gone)
  fwd : ∀ x, (s.sel x).destroyed = true → ∀ y i a, Note.fwd i a ∉ (s.sel y).inbox
  rdy : ∀ i a, Note.timer i a ∉ s.ready

theorem someD {s : St} {x : Nat} (h : s.inRange x = true) (hd : (s.sel x).destroyed = true) : s.someDestroyed = true := by
  have hyn : x < s.n.getD 0 := by
    unfold St.inRange at h
    split at h
    · cases h
    · rename_i n hn; rw [hn]; simpa using h
  simp only [St.someDestroyed, List.any_eq_true, List.mem_range]
  exact ⟨x, hyn, hd⟩

theorem invJ_start : InvJ start := by constructor <;> simp [start]

/-- steps that post no `fwd`, and change neither the phase nor the flag -/
theorem j_same {s t : St} (h : InvJ s) (hr : ∀ x, s.inRange x = true → t.inRange x = true) (hd : ∀ x, (t.sel x).destroyed = (s.sel x).destroyed)
    (hp : ∀ x, (s.sel x).destroyed = true → (t.sel x).phase = (s.sel x).phase) (hf : ∀ x i a, Note.fwd i a ∈ (t.sel x).inbox → Note.fwd i a ∈ (s.sel x).inbox)
    (hy : ∀ i a, Note.timer i a ∈ t.ready → Note.timer i a ∈ s.ready) : InvJ t := by
  obtain ⟨h1, h2, h3⟩ := h
  constructor
  · intro x hx; rw [hd] at hx; rw [hp x hx]; exact ⟨hr x (h1 x hx).1, (h1 x hx).2⟩
  · intro x hx y i a hm; rw [hd] at hx; exact h2 x hx y i a (hf y i a hm)
  · intro i a hm; exact h3 i a (hy i a hm)

theorem j_upd {s : St} (h : InvJ s) (x : Nat) (f : Sel → Sel) (hd : (f (s.sel x)).destroyed = (s.sel x).destroyed) (hp : (f (s.sel x)).phase = (s.sel x).phase ∨ (s.sel x).destroyed = false)
    (hf : ∀ i a, Note.fwd i a ∈ (f (s.sel x)).inbox → Note.fwd i a ∈ (s.sel x).inbox) : InvJ (s.upd x f) := by
  refine j_same h (fun _ h => h) ?_ ?_ ?_ (fun _ _ h => h)
  · intro y; by_cases hy : y = x
    · subst hy; rw [upd_eq]; exact hd
    · rw [upd_ne y hy]
  · intro y hy'; by_cases hy : y = x
    · subst hy; rw [upd_eq]; rcases hp with hp | hp
      · exact hp
      · rw [hy'] at hp; cases hp
    · rw [upd_ne y hy]
  · intro y i a; by_cases hy : y = x
    · subst hy; rw [upd_eq]; exact hf i a
    · rw [upd_ne y hy]; exact id

theorem j_log {s : St} (h : InvJ s) (e : List Ev) : InvJ (s.log e) := j_same h (fun _ h => h) (fun _ => rfl) (fun _ _ => rfl) (fun _ _ _ h => h) (fun _ _ h => h)

theorem notPosted {s : St} (h : InvJ s) {x : Nat} (hp : (s.sel x).phase ≠ .none) (hp' : (s.sel x).phase ≠ .gone) : (s.sel x).destroyed = false := by
  cases hd : (s.sel x).destroyed with
  | false => rfl
  | true => rcases (h.des x hd).2 with h | h
            · exact absurd h hp
            · exact absurd h hp'

theorem all_any {s : St} {p : Note → Bool} (hi : Inv s) (ha : s.all (fun l => ! l.inbox.any p) = true) : ∀ y, ∀ m ∈ (s.sel y).inbox, p m = false := by
  intro y m hm
  cases hy : s.inRange y with
  | false => obtain ⟨k, hk⟩ := (hi.2 y hy).1; rw [hk] at hm; cases hm
  | true =>
    have hyn : y < s.n.getD 0 := by
      unfold St.inRange at hy
      split at hy
      · cases hy
      · rename_i n hn; rw [hn]; simpa using hy
    simp only [St.all, List.all_eq_true, List.mem_range] at ha
    have := ha y hyn
    simp only [Bool.not_eq_true', List.any_eq_false] at this
    simpa using this m hm

set_option maxHeartbeats 1000000 in
theorem invJ_step {md : Bool} {s t : St} {o : Op} (hi : Inv s) (h : InvJ s) (hs : stepP md s o = .ok t) : InvJ t := by
  have ho := hi.2
  unfold stepP at hs
  split at hs
  · rename_i hpol
    cases o with
    | onReady pick =>
      simp only [step] at hs
      split at hs
      · cases hs; exact j_same h (fun _ h => h) (fun _ => rfl) (fun _ _ => rfl) (fun _ _ _ h => h) (fun i a h => by simpa using h)
      · split at hs
        · have := post_ok hs; subst this
          refine j_upd (s := { s.log [.onReady s.next] with next := s.next + 1 }) (j_same h (fun _ h => h) (fun _ => rfl) (fun _ _ => rfl) (fun _ _ _ h => h) (fun _ _ h => h)) _ _ rfl (.inl rfl) ?_
          intro i a hm; simpa using hm
        · cases hs
    | onReadyTest =>
      simp only [step] at hs
      split at hs
      · cases hs; exact j_same h (fun _ h => h) (fun _ => rfl) (fun _ _ => rfl) (fun _ _ _ h => h) (fun i a h => h)
      · cases hs
    | onReadyAdd id =>
      simp only [step] at hs
      split at hs
      · cases hs; exact j_same h (fun _ h => h) (fun _ => rfl) (fun _ _ => rfl) (fun _ _ _ h => h) (fun i a h => by simpa using h)
      · cases hs
    | addTimer msec pick =>
      simp only [step] at hs
      split at hs
      · cases hs; exact j_same h (fun _ h => h) (fun _ => rfl) (fun _ _ => rfl) (fun _ _ _ h => h) (fun i a h => by simpa using h)
      · split at hs
        · have := post_ok hs; subst this
          refine j_upd (s := { s.log [.timer s.next msec] with next := s.next + 1 }) (j_same h (fun _ h => h) (fun _ => rfl) (fun _ _ => rfl) (fun _ _ _ h => h) (fun _ _ h => h)) _ _ rfl (.inl rfl) ?_
          intro i a hm; simpa using hm
        · cases hs
    | addTimerTs here x msec =>
      simp only [step] at hs
      have hb : InvJ { s.log [.timer s.next msec] with next := s.next + 1 } := j_same h (fun _ h => h) (fun _ => rfl) (fun _ _ => rfl) (fun _ _ _ h => h) (fun _ _ h => h)
      split at hs
      · cases hs
      · split at hs
        · cases hs; exact j_upd hb _ _ rfl (.inl rfl) (fun i a hm => hm)
        · have := post_ok hs; subst this
          exact j_upd hb _ _ rfl (.inl rfl) (fun i a hm => by simpa using hm)
    | addTimerHere x msec =>
      simp only [step] at hs
      have hb : InvJ { s.log [.timer s.next msec] with next := s.next + 1 } := j_same h (fun _ h => h) (fun _ => rfl) (fun _ _ => rfl) (fun _ _ _ h => h) (fun _ _ h => h)
      split at hs
      · cases hs
      · split at hs
        · cases hs; exact j_log hb _
        · cases hs; exact j_upd hb _ _ rfl (.inl rfl) (fun i a hm => hm)
    | threadInit id =>
      simp only [step] at hs
      split at hs <;> cases hs <;> exact j_same h (fun _ h => h) (fun _ => rfl) (fun _ _ => rfl) (fun _ _ _ h => h) (fun _ _ h => h)
    | init size picks =>
      simp only [step] at hs
      split at hs
      · cases hs
      · rename_i hn
        have hn : s.n = none := by simpa using hn
        split at hs
        · cases hs
          have hnd : ∀ x, (s.sel x).destroyed = false := by
            intro x; cases hd : (s.sel x).destroyed with
            | false => rfl
            | true => have := (h.des x hd).1; simp [St.inRange, hn] at this
          have hd' : ∀ x, ((drain s s.ready picks).sel x).destroyed = false := fun x => by rw [((drain_other _ _ _).2.2.2.2.2 x).2.2.2.1]; exact hnd x
          constructor
          · intro x hx; exact absurd (hd' x).symm (by rw [show ((drain s s.ready picks).sel x).destroyed = true from hx]; simp)
          · intro x hx; exact absurd (hd' x).symm (by rw [show ((drain s s.ready picks).sel x).destroyed = true from hx]; simp)
          · intro i a hm; cases hm
        · cases hs
    | grow here size =>
      simp only [step] at hs
      split at hs
      · cases hs
      · rename_i k hk
        split at hs
        · cases hs; exact h
        · split at hs
          · cases hs; exact h
          · cases hs
            exact j_same h (fun y hy => by simp [St.inRange, hk] at hy ⊢; omega) (fun _ => rfl) (fun _ _ => rfl) (fun _ _ _ h => h) (fun _ _ h => h)
    | start x =>
      simp only [step] at hs
      split at hs
      · rename_i hc; cases hs
        refine j_upd h _ _ rfl (.inr ?_) (fun i a hm => hm)
        cases hd : (s.sel x).destroyed with
        | false => rfl
        | true => have := someD hc.1 hd; simp [polite, this] at hpol
      · cases hs
    | born x =>
      simp only [step] at hs
      split at hs
      · rename_i hc
        split at hs
        · cases hs
        · rename_i hd
          cases hs; exact j_upd (j_log h _) _ _ rfl (.inr (by simpa [St.log] using hd)) (fun i a hm => hm)
      · cases hs
    | hook x =>
      simp only [step] at hs
      split at hs
      · rename_i hc; cases hs; exact j_upd h _ _ rfl (.inr (notPosted h (by rw [hc]; simp) (by rw [hc]; simp))) (fun i a hm => hm)
      · rename_i hc; cases hs; exact j_upd (j_log h _) _ _ rfl (.inr (notPosted h (by rw [hc]; simp) (by rw [hc]; simp))) (fun i a hm => hm)
      · rename_i hc; cases hs; exact j_upd (j_log h _) _ _ rfl (.inr (notPosted h (by rw [hc]; simp) (by rw [hc]; simp))) (fun i a hm => hm)
      · rename_i hc; cases hs; exact j_upd (j_log h _) _ _ rfl (.inr (notPosted h (by rw [hc]; simp) (by rw [hc]; simp))) (fun i a hm => hm)
      · cases hs
    | handle x pick =>
      simp only [step] at hs
      split at hs
      · cases hs
      · split at hs
        · cases hs
        · rename_i m r hb
          have hr : InvJ (s.upd x (fun l => { l with inbox := r })) := j_upd h _ _ rfl (.inl rfl) (fun i a hm => by rw [hb]; exact List.mem_cons_of_mem _ hm)
          split at hs
          · cases hs
          · split at hs
            · cases hs; exact j_log hr _
            · cases hs; exact j_upd hr _ _ rfl (.inl rfl) (fun i a hm => hm)
            · split at hs
              · have := post_ok hs; subst this
                exact j_upd hr _ _ rfl (.inl rfl) (fun i a hm => by simpa using hm)
              · cases hs
            · cases hs; exact j_upd hr _ _ rfl (.inl rfl) (fun i a hm => hm)
    | check x =>
      simp only [step] at hs
      split at hs
      · cases hs
      · split at hs
        · cases hs
        · cases hs; exact j_upd h _ _ rfl (.inl rfl) (fun i a hm => hm)
    | fire x =>
      simp only [step] at hs
      split at hs
      · cases hs
      · cases hs; exact j_log (j_upd h _ _ rfl (.inl rfl) (fun i a hm => hm)) _
    | setCount x k =>
      simp only [step] at hs
      cases hs; exact j_upd h _ _ rfl (.inl rfl) (fun i a hm => hm)
    | update here t' =>
      simp only [step] at hs
      split at hs
      · cases hs
      · split at hs
        · split at hs
          · cases hs
          · cases hs
            refine j_same h (fun _ h => h) ?_ ?_ ?_ (fun _ _ h => h)
            · intro x; simp only [adjust, St.log]; repeat' split
              all_goals rfl
            · intro x _; simp only [adjust, St.log]; repeat' split
              all_goals rfl
            · intro x i a; simp only [adjust, St.log]; repeat' split
              all_goals first | exact id | simp
        · cases hs; exact j_same h (fun _ h => h) (fun _ => rfl) (fun _ _ => rfl) (fun _ _ _ h => h) (fun _ _ h => h)
    | shutdown =>
      simp only [step] at hs
      cases hs
      refine j_same h (fun _ h => h) ?_ ?_ ?_ (fun _ _ h => h)
      · intro x; dsimp only; split <;> rfl
      · intro x _; dsimp only; split <;> rfl
      · intro x i a; dsimp only; split <;> exact id
    | close =>
      simp only [step] at hs
      cases hs
      refine j_same h (fun _ h => h) ?_ ?_ ?_ (fun _ _ h => h)
      · intro x; dsimp only; split <;> rfl
      · intro x _; dsimp only; split <;> rfl
      · intro x i a; dsimp only; split <;> exact id
    | leave x =>
      simp only [step] at hs
      split at hs
      · cases hs
      · rename_i hc
        have hph : (s.sel x).phase = .loop := by
          cases hp : (s.sel x).phase <;> simp [hp] at hc ⊢
        split at hs
        · cases hs; exact j_upd h _ _ rfl (.inr (notPosted h (by rw [hph]; simp) (by rw [hph]; simp))) (fun i a hm => hm)
        · cases hs
    | destroy x =>
      simp only [step] at hs
      split at hs
      · rename_i hc; cases hs
        simp only [polite, Bool.and_eq_true, bne_iff_ne, ne_eq] at hpol
        have hr : s.inRange x = true := by
          cases hr : s.inRange x with
          | true => rfl
          | false => obtain ⟨k, hk⟩ := (ho x hr).1; rw [hk] at hc; simp at hc
        have hnf : ∀ y i a, Note.fwd i a ∉ (s.sel y).inbox := by
          intro y i a hm; have := all_any hi hpol.2 y _ hm; cases this
        have hib : ∀ y, ((s.upd x (fun l => { l with destroyed := true })).sel y).inbox = (s.sel y).inbox ∧ ((s.upd x (fun l => { l with destroyed := true })).sel y).phase = (s.sel y).phase := by
          intro y; unfold St.upd; dsimp only; split <;> exact ⟨rfl, rfl⟩
        refine ⟨?_, ?_, h.rdy⟩
        · intro y hy
          rw [(hib y).2]
          by_cases hyx : y = x
          · subst hyx
            refine ⟨hr, ?_⟩
            cases hp : (s.sel y).phase <;> simp [hp, Phase.noThread] at hc hpol ⊢
          · rw [upd_ne y hyx] at hy; exact h.des y hy
        · intro _ _ y i a hm
          rw [(hib y).1] at hm; exact hnf y i a hm
      · cases hs
  · cases hs

theorem noub_P {md : Bool} {s : St} {o : Op} (h : InvJ s) (hpol : polite s o = true) : step md s o ≠ .ub := by
  have hin : s.someDestroyed = false → ∀ x, s.inRange x = true → (s.sel x).destroyed = false := fun hs x hx => by
    cases hd : (s.sel x).destroyed with
    | false => rfl
    | true => rw [someD hx hd] at hs; cases hs
  have hrun : ∀ x, (s.sel x).phase = .loop ∨ (s.sel x).phase = .posted → (s.sel x).destroyed = false := by
    intro x hx; exact notPosted h (by rcases hx with hx | hx <;> rw [hx] <;> simp) (by rcases hx with hx | hx <;> rw [hx] <;> simp)
  have hfw : ∀ x i a, Note.fwd i a ∈ (s.sel x).inbox → ∀ y, (s.sel y).destroyed = false := by
    intro x i a hm y
    cases hd : (s.sel y).destroyed with
    | false => rfl
    | true => exact absurd hm (h.fwd y hd x i a)
  intro hu
  cases o with
  | onReady pick =>
    simp only [polite, Bool.not_eq_true'] at hpol
    simp only [step] at hu; split at hu
    · cases hu
    · split at hu
      · rename_i hr; simp only [post] at hu; split at hu
        · rename_i hd; have := hin hpol _ hr; rw [show (s.sel pick).destroyed = true from hd] at this; cases this
        · cases hu
      · cases hu
  | addTimer m pick =>
    simp only [polite, Bool.not_eq_true'] at hpol
    simp only [step] at hu; split at hu
    · cases hu
    · split at hu
      · rename_i hr; simp only [post] at hu; split at hu
        · rename_i hd; have := hin hpol _ hr; rw [show (s.sel pick).destroyed = true from hd] at this; cases this
        · cases hu
      · cases hu
  | addTimerTs here x m =>
    simp only [polite, Bool.not_eq_true'] at hpol
    simp only [step] at hu; split at hu
    · cases hu
    · rename_i hc
      split at hu
      · cases hu
      · simp only [post] at hu; split at hu
        · rename_i hd
          have := hin hpol x (by cases hr : s.inRange x with
            | true => rfl
            | false => exact absurd (.inl hr) hc)
          rw [show (s.sel x).destroyed = true from hd] at this; cases this
        · cases hu
  | born x =>
    simp only [step] at hu; split at hu
    · rename_i hp
      split at hu
      · rename_i hd; rw [hrun x (.inr hp)] at hd; cases hd
      · cases hu
    · cases hu
  | handle x pick =>
    simp only [step] at hu; split at hu
    · cases hu
    · rename_i hc
      have hph : (s.sel x).phase = .loop := by
        cases hp : (s.sel x).phase <;> simp [hp] at hc ⊢
      split at hu
      · cases hu
      · rename_i m r hb
        split at hu
        · rename_i hd; rw [hrun x (.inl hph)] at hd; cases hd
        · split at hu
          · cases hu
          · cases hu
          · split at hu
            · rename_i i a _
              simp only [post] at hu; split at hu
              · rename_i hd
                have h1 : ((s.upd x (fun l => { l with inbox := r })).sel pick).destroyed = (s.sel pick).destroyed := by unfold St.upd; dsimp only; split <;> rfl
                rw [h1, hfw x i a (by rw [hb]; exact List.mem_cons_self) pick] at hd; cases hd
              · cases hu
            · cases hu
          · cases hu
  | check x =>
    simp only [step] at hu; split at hu
    · cases hu
    · rename_i hc
      have hph : (s.sel x).phase = .loop := by
        cases hp : (s.sel x).phase <;> simp [hp] at hc ⊢
      split at hu
      · rename_i hd; rw [hrun x (.inl hph)] at hd; cases hd
      · cases hu
  | update here t =>
    simp only [polite, Bool.or_eq_true, decide_eq_true_eq, Bool.not_eq_true'] at hpol
    simp only [step] at hu; split at hu
    · cases hu
    · split at hu
      · split at hu
        · rename_i h1 h2; rcases hpol with h3 | h3
          · omega
          · rw [h3] at h2; cases h2
        · cases hu
      · cases hu
  | _ => simp only [step] at hu <;> repeat' split at hu
         all_goals cases hu

theorem invJ_reach {md : Bool} {s : St} (h : Reachable (stepP md) start s) : Inv s ∧ InvJ s :=
  h.invariant (P := fun s => Inv s ∧ InvJ s) ⟨inv_start, invJ_start⟩ (fun _ _ _ hi hs => ⟨inv_step hi.1 (stepP_step hs), invJ_step hi.1 hi.2 hs⟩)

/-- without shutdown nothing is destroyed -/
theorem invJ_calm {s : St} (h : TInv s) : InvJ s := by
  obtain ⟨due, _, hp⟩ := h
  exact ⟨fun x hx => (by rw [(hp.noc x).2.2] at hx; cases hx), fun x hx => (by rw [(hp.noc x).2.2] at hx; cases hx), hp.rtm⟩

theorem noub_C {md : Bool} {s : St} {o : Op} (h : TInv s) (hcalm : calm s o = true) : step md s o ≠ .ub := by
  obtain ⟨due, _, hp⟩ := id h
  have hsd : s.someDestroyed = false := by
    simp only [St.someDestroyed, List.any_eq_false, List.mem_range]
    intro x hx hd; rw [(hp.noc x).2.2] at hd; cases hd
  by_cases hpol : polite s o = true
  · exact noub_P (invJ_calm h) hpol
  · cases o <;> simp [polite, hsd] at hpol
    simp only [step]; split <;> simp

/-! ## Settling -/

/-- what is still to be done for a notice -/
def Note.weight : Note → Nat
  | .call _ | .adjust _ => 1
  | .timer _ _ => 3
  | .fwd _ _ => 4

def Phase.weight (hk : List Nat) : Phase → Nat
  | .none | .posted => hk.length + 2
  | .init r => r.length + 1
  | _ => 0

def Sel.weight (hk : List Nat) (l : Sel) : Nat :=
  l.phase.weight hk + (l.inbox.map Note.weight).sum + 2 * l.timers.length + l.firing.length

def total (s : St) : Nat := ((List.range (s.n.getD 0)).map (fun x => (s.sel x).weight s.tinit)).sum

theorem sum_upd (f g : Nat → Nat) (x n : Nat) (hx : x < n) (h : ∀ y, y ≠ x → g y = f y) :
    ((List.range n).map g).sum + f x = ((List.range n).map f).sum + g x := by
  have hne : ∀ k, k ≤ x → ((List.range k).map g).sum = ((List.range k).map f).sum := by
    intro k
    induction k with
    | zero => intro _; rfl
    | succ k ih => intro hk; simp only [List.range_succ, List.map_append, List.sum_append, List.map_cons, List.map_nil, List.sum_cons, List.sum_nil]; rw [ih (by omega), h k (by omega)]
  induction n with
  | zero => omega
  | succ n ih =>
    simp only [List.range_succ, List.map_append, List.sum_append, List.map_cons, List.map_nil, List.sum_cons, List.sum_nil]
    by_cases hn : x = n
    · subst hn; rw [hne x (Nat.le_refl _)]; omega
    · have := ih (by omega); have := h n (by omega); omega

theorem inRange_lt {s : St} {x : Nat} (h : s.inRange x = true) : x < s.n.getD 0 := by
  unfold St.inRange at h
  split at h
  · cases h
  · rename_i n hn; rw [hn]; simpa using h

theorem total_upd (s : St) (x : Nat) (f : Sel → Sel) (hx : s.inRange x = true) :
    total (s.upd x f) + (s.sel x).weight s.tinit = total s + (f (s.sel x)).weight s.tinit := by
  have := sum_upd (fun y => (s.sel y).weight s.tinit) (fun y => ((s.upd x f).sel y).weight s.tinit) x (s.n.getD 0) (inRange_lt hx) (fun y hy => by simp only [upd_ne y hy])
  simp only [upd_eq] at this
  exact this

theorem total_upd2 (s : St) (x : Nat) (g f : Sel → Sel) (hx : s.inRange x = true) :
    total ((s.upd x g).upd x f) + (s.sel x).weight s.tinit = total s + (f (g (s.sel x))).weight s.tinit := by
  have t1 := total_upd s x g hx
  have t2 : total ((s.upd x g).upd x f) + ((s.upd x g).sel x).weight s.tinit = total (s.upd x g) + (f ((s.upd x g).sel x)).weight s.tinit := total_upd (s.upd x g) x f hx
  rw [upd_eq] at t2
  omega

theorem total_ran (s : St) (x i : Nat) : total (doRan s x i) = total s := rfl

theorem lib_calm {s : St} {o : Op} (h : isLib s o = true) : calm s o = true := by
  cases o <;> simp [isLib, calm] at h ⊢

/-- only a thread of a selector that was closed ends, and only with MALLOCDEBUG -/
def ExitInv (md : Bool) (s : St) : Prop := ∀ x, ((∃ r, (s.sel x).phase = .exit r) ∨ (s.sel x).phase = .gone) → (s.sel x).closed = true ∧ md = true

theorem x_same {md : Bool} {s t : St} (h : ExitInv md s) (hs : ∀ x, ((t.sel x).phase = (s.sel x).phase ∨ ((∀ r, (t.sel x).phase ≠ .exit r) ∧ (t.sel x).phase ≠ .gone)) ∧
    ((s.sel x).closed = true → (t.sel x).closed = true)) : ExitInv md t := by
  intro x hx
  obtain ⟨h1, h2⟩ := hs x
  rcases h1 with h1 | ⟨h1, h3⟩
  · rw [h1] at hx; obtain ⟨a, b⟩ := h x hx; exact ⟨h2 a, b⟩
  · rcases hx with ⟨r, hr⟩ | hr
    · exact absurd hr (h1 r)
    · exact absurd hr h3

theorem x_upd {md : Bool} {s t : St} (h : ExitInv md s) (x : Nat) (hne : ∀ y, y ≠ x → t.sel y = s.sel y)
    (hf : (t.sel x).phase = (s.sel x).phase ∨ ((∀ r, (t.sel x).phase ≠ .exit r) ∧ (t.sel x).phase ≠ .gone) ∨ ((s.sel x).closed = true ∧ md = true)) (hc : (t.sel x).closed = (s.sel x).closed) :
    ExitInv md t := by
  intro y hy
  by_cases hyx : y = x
  · subst hyx
    rw [hc]
    rcases hf with hf | ⟨hf, hf'⟩ | hf
    · rw [hf] at hy; exact h y hy
    · rcases hy with ⟨r, hr⟩ | hr
      · exact absurd hr (hf r)
      · exact absurd hr hf'
    · exact hf
  · rw [hne y hyx] at hy ⊢; exact h y hy

theorem exit_step {md : Bool} {s t : St} {o : Op} (h : ExitInv md s) (hs : step md s o = .ok t) : ExitInv md t := by
  have hsame : t.sel = s.sel → ExitInv md t := fun e => x_same h (fun x => ⟨.inl (by rw [e]), by rw [e]; exact id⟩)
  have hpost : ∀ {a : St} {x m}, a.sel = s.sel → post a x m = .ok t → ExitInv md t := by
    intro a x m ha hp
    rw [post_ok hp]
    exact x_upd h x (fun y hy => by rw [upd_ne y hy, ha]) (.inl (by rw [upd_eq, ha])) (by rw [upd_eq, ha])
  cases o with
  | init size picks =>
    simp only [step] at hs
    repeat' split at hs
    all_goals first | (cases hs; done) | skip
    cases hs
    exact x_same h (fun x => ⟨.inl ((drain_other _ _ _).2.2.2.2.2 x).1, by
      show _ → ((drain s s.ready picks).sel x).closed = true
      rw [((drain_other _ _ _).2.2.2.2.2 x).2.2.2.2.1]; exact id⟩)
  | hook x =>
    simp only [step] at hs
    split at hs
    · cases hs; exact x_upd h x (fun y hy => (upd_ne y hy).trans rfl) (.inr (.inl ⟨fun r => by rw [upd_eq]; simp, by rw [upd_eq]; simp⟩)) ((congrArg Sel.closed upd_eq).trans rfl)
    · cases hs; exact x_upd h x (fun y hy => (upd_ne y hy).trans rfl) (.inr (.inl ⟨fun r => by rw [upd_eq]; simp, by rw [upd_eq]; simp⟩)) ((congrArg Sel.closed upd_eq).trans rfl)
    · rename_i hp; cases hs; exact x_upd h x (fun y hy => (upd_ne y hy).trans rfl) (.inr (.inr (h x (.inl ⟨_, hp⟩)))) ((congrArg Sel.closed upd_eq).trans rfl)
    · rename_i hp; cases hs; exact x_upd h x (fun y hy => (upd_ne y hy).trans rfl) (.inr (.inr (h x (.inl ⟨_, hp⟩)))) ((congrArg Sel.closed upd_eq).trans rfl)
    · cases hs
  | handle x pick =>
    simp only [step] at hs
    have fin : (∀ z, (t.sel z).phase = (s.sel z).phase ∧ (t.sel z).closed = (s.sel z).closed) → ExitInv md t := fun hz => x_same h (fun z => ⟨.inl (hz z).1, by rw [(hz z).2]; exact id⟩)
    repeat' split at hs
    all_goals first | (cases hs; done) | skip
    · cases hs; refine fin (fun z => ?_); simp only [doRan, St.log, St.upd]; split <;> exact ⟨rfl, rfl⟩
    · cases hs; refine fin (fun z => ?_); simp only [St.upd]; split <;> exact ⟨rfl, rfl⟩
    · rw [post_ok hs] at fin ⊢; refine fin (fun z => ?_); simp only [St.upd]; repeat' split
      all_goals exact ⟨rfl, rfl⟩
    · cases hs; refine fin (fun z => ?_); simp only [St.upd]; split <;> exact ⟨rfl, rfl⟩
  | update here t' =>
    simp only [step] at hs
    repeat' split at hs
    all_goals first | (cases hs; done) | skip
    · cases hs
      refine x_same h (fun x => ?_)
      simp only [adjust, St.log]; repeat' split
      all_goals exact ⟨.inl rfl, id⟩
    · cases hs; exact hsame rfl
  | shutdown =>
    simp only [step] at hs; cases hs
    refine x_same h (fun x => ?_)
    dsimp only; split <;> exact ⟨.inl rfl, id⟩
  | close =>
    simp only [step] at hs; cases hs
    refine x_same h (fun x => ?_)
    dsimp only; split
    · exact ⟨.inl rfl, fun _ => rfl⟩
    · exact ⟨.inl rfl, id⟩
  | leave x =>
    simp only [step] at hs
    split at hs
    · cases hs
    · split at hs
      · rename_i hc; cases hs
        exact x_upd h x (fun y hy => by rw [upd_ne y hy]) (.inr (.inr ⟨hc.2.1, hc.1⟩)) (by rw [upd_eq])
      · cases hs
  | start x =>
    simp only [step] at hs
    split at hs
    · cases hs; exact x_upd h x (fun y hy => upd_ne y hy) (.inr (.inl ⟨fun r => by rw [upd_eq]; simp, by rw [upd_eq]; simp⟩)) ((congrArg Sel.closed upd_eq).trans rfl)
    · cases hs
  | born x =>
    simp only [step] at hs
    repeat' split at hs
    all_goals first | (cases hs; done) | skip
    cases hs
    exact x_upd h x (fun y hy => (upd_ne y hy).trans rfl) (.inr (.inl ⟨fun r => by rw [upd_eq]; simp, by rw [upd_eq]; simp⟩)) ((congrArg Sel.closed upd_eq).trans rfl)
  | _ =>
    have fin : (∀ z, (t.sel z).phase = (s.sel z).phase ∧ (t.sel z).closed = (s.sel z).closed) → ExitInv md t := fun hz => x_same h (fun z => ⟨.inl (hz z).1, by rw [(hz z).2]; exact id⟩)
    simp only [step] at hs
    repeat' split at hs
    all_goals first
      | (refine hpost ?_ hs; rfl)
      | (cases hs; done)
      | (cases hs; refine fin (fun z => ?_); simp only [doRan, St.log, St.upd]; split <;> exact ⟨rfl, rfl⟩)
      | (cases hs; exact hsame rfl)

theorem exit_reach {md : Bool} {s : St} (h : Reachable (step md) start s) : ExitInv md s :=
  h.invariant (by intro x hx; simp [start] at hx) (fun _ _ _ hi hs => exit_step hi hs)

theorem reach_of_C {md : Bool} {s : St} (h : Reachable (stepC md) start s) : Reachable (step md) start s := by
  induction h with
  | refl => exact .refl
  | tail o _ hs ih => exact .tail o ih (stepC_step hs)

theorem reach_of_P {md : Bool} {s : St} (h : Reachable (stepP md) start s) : Reachable (step md) start s := by
  induction h with
  | refl => exact .refl
  | tail o _ hs ih => exact .tail o ih (stepP_step hs)

/-- a step of a thread brings the end nearer -/
theorem lib_less {md : Bool} {s t : St} {o : Op} (hi : Inv s) (hx : ∀ x, (∀ r, (s.sel x).phase ≠ .exit r)) (hc : ∀ x, (s.sel x).shutdown = false) (hl : isLib s o = true)
    (hs : step md s o = .ok t) : total t < total s ∧ t.n = s.n ∧ t.tinit = s.tinit := by
  have ho := hi.2
  cases o <;> simp only [isLib, Bool.false_eq_true] at hl
  · rename_i x
    simp only [step] at hs
    repeat' split at hs
    all_goals first | (cases hs; done) | skip
    rename_i hp _
    cases hs
    have hr := phase_in ho (x := x) (by rw [hp]; simp)
    have := total_upd (s.log [.born x]) x (fun l => { l with phase := .init s.tinit }) hr
    simp only [Sel.weight, St.log, hp, Phase.weight] at this
    exact ⟨by simp only [total, St.log] at this ⊢; omega, rfl, rfl⟩
  · rename_i x
    simp only [step] at hs
    split at hs
    · rename_i hp; cases hs
      have hr := phase_in ho (x := x) (by rw [hp]; simp)
      have := total_upd s x (fun l => { l with phase := .loop }) hr
      simp only [Sel.weight, hp, Phase.weight, List.length_nil] at this
      exact ⟨by omega, rfl, rfl⟩
    · rename_i i r hp; cases hs
      have hr := phase_in ho (x := x) (by rw [hp]; simp)
      have := total_upd (s.log [.hook x i 0]) x (fun l => { l with phase := .init r }) hr
      simp only [Sel.weight, St.log, hp, Phase.weight, List.length_cons] at this
      exact ⟨by simp only [total, St.log] at this ⊢; omega, rfl, rfl⟩
    · rename_i hp; exact absurd hp (hx x _)
    · rename_i hp; exact absurd hp (hx x _)
    · cases hs
  · rename_i x pick
    simp only [step] at hs
    split at hs
    · cases hs
    · rename_i hcc
      have hph : (s.sel x).phase = .loop := by
        cases hp : (s.sel x).phase <;> simp [hp] at hcc ⊢
      have hr := phase_in ho (x := x) (by rw [hph]; simp)
      split at hs
      · cases hs
      · rename_i m r hb
        have t1 := total_upd s x (fun l => { l with inbox := r }) hr
        simp only [Sel.weight, hb, List.map_cons, List.sum_cons] at t1
        split at hs
        · cases hs
        · split at hs
          · cases hs
            simp only [Note.weight] at t1
            exact ⟨by rw [total_ran]; omega, rfl, rfl⟩
          · rename_i i a
            cases hs
            have t2 := total_upd2 s x (fun l => { l with inbox := r }) (fun l => { l with timers := (i, a) :: l.timers }) hr
            simp only [Sel.weight, hb, List.map_cons, List.sum_cons, List.length_cons, Note.weight] at t2
            exact ⟨by omega, rfl, rfl⟩
          · rename_i i a
            split at hs
            · rename_i hq
              have := post_ok hs; subst this
              have t2 := total_upd (s.upd x (fun l => { l with inbox := r })) pick (fun l => { l with inbox := .timer i a :: l.inbox }) hq
              simp only [Sel.weight, List.map_cons, List.sum_cons] at t2
              simp only [Note.weight] at t1 t2
              exact ⟨by omega, rfl, rfl⟩
            · cases hs
          · rename_i d
            cases hs
            have t2 := total_upd2 s x (fun l => { l with inbox := r }) (fun l => { l with timers := l.timers.map (fun p => (p.1, p.2 + d)) }) hr
            simp only [Sel.weight, hb, List.map_cons, List.sum_cons, List.length_map, Note.weight] at t2
            exact ⟨by omega, rfl, rfl⟩
  · rename_i x
    simp only [step] at hs
    split at hs
    · cases hs
    · rename_i hcc
      have hph : (s.sel x).phase = .loop := by
        cases hp : (s.sel x).phase <;> simp [hp] at hcc ⊢
      have hf : (s.sel x).firing = [] := by
        cases hf : (s.sel x).firing <;> simp [hf] at hcc ⊢
      have hr := phase_in ho (x := x) (by rw [hph]; simp)
      split at hs
      · cases hs
      · cases hs
        have t1 := total_upd s x (fun l => { l with
          timers := l.timers.filter (fun p => ! (decide (p.2 ≤ s.clock) || (md && (s.sel x).shutdown))),
          firing := (l.timers.filter (fun p => decide (p.2 ≤ s.clock) || (md && (s.sel x).shutdown))).map Prod.fst }) hr
        simp only [Sel.weight, List.length_map, hf, List.length_nil] at t1
        have key : ∀ (l : List (Nat × Int)) (f : Nat × Int → Bool), (l.filter (fun p => ! f p)).length + (l.filter f).length = l.length ∧ (l.any f = true → 0 < (l.filter f).length) := by
          intro l f
          induction l with
          | nil => simp
          | cons a l ih => cases ha : f a <;> simp [ha] <;> first | omega | (constructor; omega; intro h; exact ih.2 (by simpa using h)) | skip
        have k1 := key (s.sel x).timers (fun p => decide (p.2 ≤ s.clock) || (md && (s.sel x).shutdown))
        have hany : (s.sel x).timers.any (fun p => decide (p.2 ≤ s.clock) || (md && (s.sel x).shutdown)) = true := by
          rw [hc x]; simpa using hl
        have k2 := k1.2 hany
        exact ⟨by omega, rfl, rfl⟩
  · rename_i x
    simp only [step] at hs
    split at hs
    · cases hs
    · rename_i i r hf
      have hr : s.inRange x = true := by
        cases hr : s.inRange x with
        | true => rfl
        | false => obtain ⟨k, hk⟩ := (ho x hr).1; rw [hk] at hf; cases hf
      cases hs
      have t1 := total_upd s x (fun l => { l with firing := r }) hr
      simp only [Sel.weight, hf, List.length_cons] at t1
      exact ⟨by rw [total_ran]; omega, rfl, rfl⟩

end Kasync.Mlife
