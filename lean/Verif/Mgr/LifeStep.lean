import Verif.Mgr.LifeInv

/-! # Every step keeps the places (C59) -/

namespace Kasync.Mlife

theorem post_ok {s t : St} {x : Nat} {m : Note} (h : post s x m = .ok t) : t = s.upd x (fun l => { l with inbox := m :: l.inbox }) := by
  unfold post at h
  split at h
  · cases h
  · cases h; rfl

theorem phase_in {s : St} (ho : Out s) {x : Nat} (h : (s.sel x).phase ≠ .none) : s.inRange x = true := by
  cases hr : s.inRange x with
  | true => rfl
  | false => obtain ⟨k, hk⟩ := (ho x hr).1; rw [hk] at h; exact absurd rfl h

theorem drain_sel (l : List Note) (picks : List Nat) (s : St) (x : Nat) (hl : l.length = picks.length) (h : x ∉ picks) : (drain s l picks).sel x = s.sel x := by
  induction l generalizing picks s with
  | nil => rfl
  | cons m l ih =>
    cases picks with
    | nil => cases hl
    | cons p ps =>
      simp only [List.mem_cons, not_or] at h
      simp only [drain, List.headD_cons, List.tail_cons]
      rw [ih _ _ (by simpa using hl) h.2]
      simp [St.upd, h.1]

theorem drain_other (l : List Note) (picks : List Nat) (s : St) :
    (drain s l picks).hist = s.hist ∧ (drain s l picks).mid = s.mid ∧ (drain s l picks).next = s.next ∧ (drain s l picks).clock = s.clock ∧
      (drain s l picks).tinit = s.tinit ∧ (∀ x, ((drain s l picks).sel x).phase = (s.sel x).phase ∧ ((drain s l picks).sel x).timers = (s.sel x).timers ∧
        ((drain s l picks).sel x).firing = (s.sel x).firing ∧ ((drain s l picks).sel x).destroyed = (s.sel x).destroyed ∧ ((drain s l picks).sel x).closed = (s.sel x).closed ∧ ((drain s l picks).sel x).shutdown = (s.sel x).shutdown) := by
  induction l generalizing picks s with
  | nil => exact ⟨rfl, rfl, rfl, rfl, rfl, fun _ => ⟨rfl, rfl, rfl, rfl, rfl, rfl⟩⟩
  | cons m l ih =>
    obtain ⟨h1, h2, h3, h4, h5, h6⟩ := ih picks.tail (s.upd (picks.headD 0) (fun l => { l with inbox := m :: l.inbox }))
    refine ⟨h1, h2, h3, h4, h5, fun x => ?_⟩
    obtain ⟨a, b, c, d, e, f⟩ := h6 x
    simp only [drain]
    rw [a, b, c, d, e, f]
    unfold St.upd; dsimp only; split <;> exact ⟨rfl, rfl, rfl, rfl, rfl, rfl⟩

/-- a step that touches one selector of the manager -/
theorem out_upd {s t : St} (ho : Out s) {x : Nat} (hx : s.inRange x = true) (hn : t.n = s.n) (hs : ∀ y, y ≠ x → t.sel y = s.sel y) {e : List Ev}
    (hh : t.hist = s.hist ++ e) (he : ∀ y i, Ev.ran y i ∈ e → y = x) : Out t := by
  intro y hy
  have hy' : s.inRange y = false := by simpa [St.inRange, hn] using hy
  have hne : y ≠ x := by rintro rfl; rw [hx] at hy'; cases hy'
  rw [hs y hne, hh]
  refine ⟨(ho y hy').1, fun i hi => ?_⟩
  rcases List.mem_append.1 hi with h | h
  · exact (ho y hy').2 i h
  · exact hne (he y i h)

/-- a step that touches no selector -/
theorem out_same {s t : St} (ho : Out s) (hn : t.n = s.n) (hs : t.sel = s.sel) {e : List Ev} (hh : t.hist = s.hist ++ e) (he : ∀ y i, Ev.ran y i ∉ e) : Out t := by
  intro y hy
  have hy' : s.inRange y = false := by simpa [St.inRange, hn] using hy
  rw [hs, hh]
  refine ⟨(ho y hy').1, fun i hi => ?_⟩
  rcases List.mem_append.1 hi with h | h
  · exact (ho y hy').2 i h
  · exact he y i h

theorem upd_ne {s : St} {x : Nat} {f : Sel → Sel} : ∀ y, y ≠ x → (s.upd x f).sel y = s.sel y := by
  intro y h; simp [St.upd, h]

theorem upd_eq {s : St} {x : Nat} {f : Sel → Sel} : (s.upd x f).sel x = f (s.sel x) := by simp [St.upd]

theorem inv_step {md : Bool} {s t : St} {o : Op} (h : Inv s) (hs : step md s o = .ok t) : Inv t := by
  obtain ⟨⟨loc, hl⟩, ho⟩ := h
  cases o with
  | onReady pick =>
    simp only [step] at hs
    split at hs
    · cases hs
      exact ⟨⟨_, new_ready hl (.call s.next) _ rfl (.inl rfl)⟩, out_same ho rfl rfl rfl (by simp)⟩
    · split at hs
      · rename_i hr
        have := post_ok hs; subst this
        exact ⟨⟨_, new_post hl (.call s.next) _ pick rfl (.inl rfl)⟩, out_upd ho hr rfl upd_ne rfl (by simp)⟩
      · cases hs
  | onReadyTest =>
    simp only [step] at hs
    split at hs
    · cases hs
      exact ⟨⟨_, new_mid hl⟩, out_same ho rfl rfl rfl (by simp)⟩
    · cases hs
  | onReadyAdd id =>
    simp only [step] at hs
    split at hs
    · rename_i hm; cases hs
      exact ⟨⟨_, mid_ready hl hm⟩, out_same ho rfl rfl (e := []) (by simp) (by simp)⟩
    · cases hs
  | addTimer msec pick =>
    simp only [step] at hs
    split at hs
    · cases hs
      exact ⟨⟨_, new_ready hl (.fwd s.next _) _ rfl (.inr ⟨_, rfl⟩)⟩, out_same ho rfl rfl rfl (by simp)⟩
    · split at hs
      · rename_i hr
        have := post_ok hs; subst this
        exact ⟨⟨_, new_post hl (.timer s.next _) _ pick rfl (.inr ⟨_, rfl⟩)⟩, out_upd ho hr rfl upd_ne rfl (by simp)⟩
      · cases hs
  | addTimerTs here x msec =>
    simp only [step] at hs
    split at hs
    · cases hs
    · rename_i hc
      have hr : s.inRange x = true := by
        cases hr : s.inRange x with
        | true => rfl
        | false => exact absurd (.inl hr) hc
      split at hs
      · cases hs
        exact ⟨⟨_, new_timer hl x msec _⟩, out_upd ho hr rfl upd_ne rfl (by simp)⟩
      · have := post_ok hs; subst this
        exact ⟨⟨_, new_post hl (.timer s.next _) _ x rfl (.inr ⟨_, rfl⟩)⟩, out_upd ho hr rfl upd_ne rfl (by simp)⟩
  | addTimerHere x msec =>
    simp only [step] at hs
    split at hs
    · cases hs
    · rename_i hc
      have hr : s.inRange x = true := phase_in ho (by intro e; rw [e] at hc; exact hc rfl)
      split at hs
      · cases hs
        exact ⟨⟨_, new_refused hl msec⟩, out_same ho rfl rfl (e := [.timer s.next msec, .refused s.next]) (by simp [St.log]) (by simp)⟩
      · cases hs
        exact ⟨⟨_, new_timer hl x msec _⟩, out_upd ho hr rfl upd_ne rfl (by simp)⟩
  | threadInit id =>
    simp only [step] at hs
    split at hs
    · cases hs
      exact ⟨⟨loc, same hl rfl rfl (fun _ => rfl) (fun _ => rfl) (fun _ => rfl) rfl rfl (by simp)⟩, out_same ho rfl rfl rfl (by simp)⟩
    · cases hs
      exact ⟨⟨loc, same hl rfl rfl (fun _ => rfl) (fun _ => rfl) (fun _ => rfl) rfl rfl (by simp)⟩, out_same ho rfl rfl rfl (by simp)⟩
  | init size picks =>
    simp only [step] at hs
    split at hs
    · cases hs
    · rename_i hn
      have hn : s.n = none := by simpa using hn
      split at hs
      · rename_i hp
        cases hs
        obtain ⟨loc', h'⟩ := drain_inv s.ready picks s rfl ⟨loc, hl⟩
        refine ⟨⟨loc', same h' rfl rfl (fun _ => rfl) (fun _ => rfl) (fun _ => rfl) rfl (e := []) (by simp) (by simp)⟩, ?_⟩
        intro y hy
        have hk : y ∉ picks := by
          intro hc; have := hp.2 y hc
          simp [St.inRange] at hy; omega
        have hy' : s.inRange y = false := by simp [St.inRange, hn]
        simp only
        rw [drain_sel _ _ _ _ hp.1.symm hk, (drain_other _ _ _).1]
        exact ho y hy'
      · cases hs
  | grow here size =>
    simp only [step] at hs
    split at hs
    · cases hs
    · rename_i k hk
      split at hs
      · cases hs; exact ⟨⟨loc, hl⟩, ho⟩
      · split at hs
        · cases hs; exact ⟨⟨loc, hl⟩, ho⟩
        · cases hs
          refine ⟨⟨loc, same hl rfl rfl (fun _ => rfl) (fun _ => rfl) (fun _ => rfl) rfl (e := []) (by simp) (by simp)⟩, ?_⟩
          intro y hy
          have hy' : s.inRange y = false := by simp [St.inRange, hk] at hy ⊢; omega
          exact ho y hy'
  | start x =>
    simp only [step] at hs
    split at hs
    · rename_i hc; cases hs
      exact ⟨⟨loc, same hl rfl rfl (fun y => by unfold St.upd; dsimp only; split <;> rfl) (fun y => by unfold St.upd; dsimp only; split <;> rfl)
        (fun y => by unfold St.upd; dsimp only; split <;> rfl) rfl (e := []) (by simp [St.upd]) (by simp)⟩, out_upd ho hc.1 rfl upd_ne (e := []) (by simp [St.upd]) (by simp)⟩
    · cases hs
  | born x =>
    simp only [step] at hs
    split at hs
    · rename_i hc
      split at hs
      · cases hs
      · cases hs
        exact ⟨⟨loc, same hl rfl rfl (fun y => by unfold St.upd; dsimp only; split <;> rfl) (fun y => by unfold St.upd; dsimp only; split <;> rfl)
          (fun y => by unfold St.upd; dsimp only; split <;> rfl) rfl rfl (by simp)⟩, out_upd ho (phase_in ho (by rw [hc]; simp)) rfl upd_ne rfl (by simp)⟩
    · cases hs
  | hook x =>
    simp only [step] at hs
    split at hs
    · rename_i hc; cases hs
      exact ⟨⟨loc, same hl rfl rfl (fun y => by unfold St.upd; dsimp only; split <;> rfl) (fun y => by unfold St.upd; dsimp only; split <;> rfl)
          (fun y => by unfold St.upd; dsimp only; split <;> rfl) rfl (e := []) (by simp [St.upd]) (by simp)⟩,
          out_upd ho (phase_in ho (by rw [hc]; simp)) rfl upd_ne (e := []) (by simp [St.upd]) (by simp)⟩
    · rename_i hc; cases hs
      exact ⟨⟨loc, same hl rfl rfl (fun y => by unfold St.upd; dsimp only; split <;> rfl) (fun y => by unfold St.upd; dsimp only; split <;> rfl)
          (fun y => by unfold St.upd; dsimp only; split <;> rfl) rfl rfl (by simp)⟩, out_upd ho (phase_in ho (by rw [hc]; simp)) rfl upd_ne rfl (by simp)⟩
    · rename_i hc; cases hs
      exact ⟨⟨loc, same hl rfl rfl (fun y => by unfold St.upd; dsimp only; split <;> rfl) (fun y => by unfold St.upd; dsimp only; split <;> rfl)
          (fun y => by unfold St.upd; dsimp only; split <;> rfl) rfl rfl (by simp)⟩, out_upd ho (phase_in ho (by rw [hc]; simp)) rfl upd_ne rfl (by simp)⟩
    · rename_i hc; cases hs
      exact ⟨⟨loc, same hl rfl rfl (fun y => by unfold St.upd; dsimp only; split <;> rfl) (fun y => by unfold St.upd; dsimp only; split <;> rfl)
          (fun y => by unfold St.upd; dsimp only; split <;> rfl) rfl rfl (by simp)⟩, out_upd ho (phase_in ho (by rw [hc]; simp)) rfl upd_ne rfl (by simp)⟩
    · cases hs
  | handle x pick =>
    simp only [step] at hs
    split at hs
    · cases hs
    · rename_i hc
      have hr : s.inRange x = true := phase_in ho (by intro e; rw [e] at hc; simp at hc)
      split at hs
      · cases hs
      · rename_i m r hb
        split at hs
        · cases hs
        · split at hs
          · cases hs
            exact ⟨⟨_, handle_call hl hb⟩, out_upd ho hr rfl (fun y hy => by simp [doRan, St.log, St.upd, hy]) rfl (by simp)⟩
          · cases hs
            exact ⟨⟨_, handle_timer hl hb⟩, out_upd ho hr rfl (fun y hy => by rw [upd_ne y hy, upd_ne y hy]) (e := []) (by simp [St.upd]) (by simp)⟩
          · split at hs
            · rename_i hp
              have := post_ok hs; subst this
              refine ⟨⟨_, handle_fwd hl hb pick⟩, ?_⟩
              intro y hy
              have hy' : s.inRange y = false := by simpa [St.inRange, St.upd] using hy
              have h1 : y ≠ x := by rintro rfl; rw [hr] at hy'; cases hy'
              have h2 : y ≠ pick := by rintro rfl; rw [hp] at hy'; cases hy'
              rw [upd_ne y h2, upd_ne y h1]
              exact ho y hy'
            · cases hs
          · cases hs
            refine ⟨⟨loc, same hl rfl rfl (fun y => ?_) (fun y => ?_) (fun y => ?_) rfl (e := []) (by simp [St.upd]) (by simp)⟩,
              out_upd ho hr rfl (fun y hy => by rw [upd_ne y hy, upd_ne y hy]) (e := []) (by simp [St.upd]) (by simp)⟩
            · by_cases hy : y = x
              · subst hy; rw [upd_eq, upd_eq, hb]; rfl
              · rw [upd_ne y hy, upd_ne y hy]
            · by_cases hy : y = x
              · subst hy; rw [upd_eq, upd_eq]; exact tids_map _ _
              · rw [upd_ne y hy, upd_ne y hy]
            · by_cases hy : y = x
              · subst hy; rw [upd_eq, upd_eq]
              · rw [upd_ne y hy, upd_ne y hy]
  | check x =>
    simp only [step] at hs
    split at hs
    · cases hs
    · rename_i hc
      have hr : s.inRange x = true := phase_in ho (by intro e; rw [e] at hc; simp at hc)
      have hf : (s.sel x).firing = [] := by
        cases hf : (s.sel x).firing with
        | nil => rfl
        | cons a l => rw [hf] at hc; simp at hc
      split at hs
      · cases hs
      · cases hs
        exact ⟨check_inv hl x hf _, out_upd ho hr rfl upd_ne (e := []) (by simp [St.upd]) (by simp)⟩
  | fire x =>
    simp only [step] at hs
    split at hs
    · cases hs
    · rename_i i r hf
      have hr : s.inRange x = true := by
        cases hr : s.inRange x with
        | true => rfl
        | false => obtain ⟨k, hk⟩ := (ho x hr).1; rw [hk] at hf; cases hf
      cases hs
      exact ⟨⟨_, fire_inv hl hf⟩, out_upd ho hr rfl (fun y hy => by simp [doRan, St.log, St.upd, hy]) rfl (by simp)⟩
  | setCount x k =>
    simp only [step] at hs
    cases hs
    refine ⟨⟨loc, same hl rfl rfl (fun y => by unfold St.upd; dsimp only; split <;> rfl) (fun y => by unfold St.upd; dsimp only; split <;> rfl)
          (fun y => by unfold St.upd; dsimp only; split <;> rfl) rfl (e := []) (by simp [St.upd]) (by simp)⟩, ?_⟩
    intro y hy
    by_cases hyx : y = x
    · subst hyx
      obtain ⟨⟨k', hk⟩, h2⟩ := ho y hy
      exact ⟨⟨k, by rw [upd_eq, hk]⟩, h2⟩
    · rw [upd_ne y hyx]; exact ho y hy
  | update here t' =>
    simp only [step] at hs
    split at hs
    · cases hs
    · split at hs
      · split at hs
        · cases hs
        · cases hs
          refine ⟨⟨loc, same hl rfl rfl (fun y => ?_) (fun y => ?_) (fun y => ?_) rfl rfl (by simp)⟩, ?_⟩
          · simp only [adjust, St.log]; repeat' split
            all_goals rfl
          · simp only [adjust, St.log]; repeat' split
            all_goals first | rfl | exact tids_map _ _
          · simp only [adjust, St.log]; repeat' split
            all_goals rfl
          · intro y hy
            have hy' : s.inRange y = false := hy
            simp only [adjust, St.log, hy']
            obtain ⟨h1, h2⟩ := ho y hy'
            exact ⟨h1, fun i hi => by simp at hi; exact h2 i hi⟩
      · cases hs
        exact ⟨⟨loc, same hl rfl rfl (fun _ => rfl) (fun _ => rfl) (fun _ => rfl) rfl rfl (by simp)⟩, out_same ho rfl rfl rfl (by simp)⟩
  | shutdown =>
    simp only [step] at hs
    cases hs
    refine ⟨⟨loc, same hl rfl rfl (fun y => ?_) (fun y => ?_) (fun y => ?_) rfl rfl (by simp)⟩, ?_⟩
    · dsimp only; split <;> rfl
    · dsimp only; split <;> rfl
    · dsimp only; split <;> rfl
    · intro y hy
      have hy' : s.inRange y = false := hy
      obtain ⟨h1, h2⟩ := ho y hy'
      simp only [St.log, hy']
      exact ⟨h1, fun i hi => by simp at hi; exact h2 i hi⟩
  | close =>
    simp only [step] at hs
    cases hs
    refine ⟨⟨loc, same hl rfl rfl (fun y => ?_) (fun y => ?_) (fun y => ?_) rfl (e := []) (by simp) (by simp)⟩, ?_⟩
    · dsimp only; split <;> rfl
    · dsimp only; split <;> rfl
    · dsimp only; split <;> rfl
    · intro y hy
      have hy' : s.inRange y = false := hy
      obtain ⟨h1, h2⟩ := ho y hy'
      simp only [hy']
      exact ⟨h1, h2⟩
  | leave x =>
    simp only [step] at hs
    split at hs
    · cases hs
    · rename_i hc
      have hr : s.inRange x = true := phase_in ho (by intro e; rw [e] at hc; simp at hc)
      split at hs
      · cases hs
        exact ⟨⟨loc, same hl rfl rfl (fun y => by unfold St.upd; dsimp only; split <;> rfl) (fun y => by unfold St.upd; dsimp only; split <;> rfl)
          (fun y => by unfold St.upd; dsimp only; split <;> rfl) rfl (e := []) (by simp [St.upd]) (by simp)⟩, out_upd ho hr rfl upd_ne (e := []) (by simp [St.upd]) (by simp)⟩
      · cases hs
  | destroy x =>
    simp only [step] at hs
    split at hs
    · rename_i hc
      have hr : s.inRange x = true := by
        cases hr : s.inRange x with
        | true => rfl
        | false => obtain ⟨k, hk⟩ := (ho x hr).1; rw [hk] at hc; simp at hc
      cases hs
      exact ⟨⟨loc, same hl rfl rfl (fun y => by unfold St.upd; dsimp only; split <;> rfl) (fun y => by unfold St.upd; dsimp only; split <;> rfl)
          (fun y => by unfold St.upd; dsimp only; split <;> rfl) rfl (e := []) (by simp [St.upd]) (by simp)⟩, out_upd ho hr rfl upd_ne (e := []) (by simp [St.upd]) (by simp)⟩
    · cases hs

theorem inv_reach {md : Bool} {s : St} (h : Reachable (step md) start s) : Inv s :=
  h.invariant inv_start (fun _ _ _ hi hs => inv_step hi hs)

end Kasync.Mlife
