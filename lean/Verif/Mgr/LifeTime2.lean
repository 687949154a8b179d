import Verif.Mgr.LifeTime

/-! # Initialisation and setting the clock back (C59) -/

namespace Kasync.Mlife

/-- initialisation: everything on the list goes to selectors -/
theorem p_drain : ∀ (l : List Note) (picks : List Nat) (s : St) (due : Nat → Int) (sh : Int) (k : Nat), s.ready = l → l.length = picks.length → (∀ p ∈ picks, p < k) →
    PInv { s with n := some k, ready := [], mid := [] } due sh → (∀ y, noAdj (s.sel y).inbox) →
    (∀ i a, Note.fwd i a ∈ l → a - sh = due i ∧ ∃ m, Ev.timer i m ∈ s.hist) → (∀ i a, Note.timer i a ∉ l) → (∀ d, Note.adjust d ∉ l) → (∀ i, Note.call i ∈ l → Ev.onReady i ∈ s.hist) →
    PInv { drain s l picks with n := some k, ready := [], mid := [] } due sh
  | [], _, _, _, _, _, _, _, _, h, _, _, _, _, _ => h
  | m :: ms, [], _, _, _, _, _, hl, _, _, _, _, _, _, _ => by cases hl
  | m :: ms, p :: ps, s, due, sh, k, hr, hl, hp, h, hna, hf, ht, ha, hc => by
    have key := p_drain ms ps ({ s with ready := ms }.upd p (fun l => { l with inbox := m :: l.inbox })) due sh k rfl (by simpa using hl)
      (fun q hq => hp q (List.mem_cons_of_mem _ hq)) ?_ ?_ (fun i a hi => hf i a (List.mem_cons_of_mem _ hi)) (fun i a hi => ht i a (List.mem_cons_of_mem _ hi))
      (fun d hd => ha d (List.mem_cons_of_mem _ hd)) (fun i hi => hc i (List.mem_cons_of_mem _ hi))
    · have e1 : ∀ (l : List Note) (p : List Nat) (a : St) (r : List Note), drain { a with ready := r } l p = { drain a l p with ready := r } := by
        intro l
        induction l with
        | nil => intro p a r; rfl
        | cons m l ih => intro p a r; exact ih p.tail (a.upd (p.headD 0) (fun l => { l with inbox := m :: l.inbox })) r
      have e2 : (({ s with ready := ms } : St).upd p (fun l => { l with inbox := m :: l.inbox })) = { s.upd p (fun l => { l with inbox := m :: l.inbox }) with ready := ms } := rfl
      rw [e2, e1] at key
      exact key
    · have hpk : p < k := hp p List.mem_cons_self
      have hm : (∃ i, m = .call i ∧ Ev.onReady i ∈ s.hist) ∨ ∃ i a, m = .fwd i a ∧ a - sh = due i ∧ ∃ m, Ev.timer i m ∈ s.hist := by
        cases m with
        | call i => exact .inl ⟨i, rfl, hc i List.mem_cons_self⟩
        | timer i a => exact absurd List.mem_cons_self (ht i a)
        | fwd i a => exact .inr ⟨i, a, rfl, hf i a List.mem_cons_self⟩
        | adjust d => exact absurd List.mem_cons_self (ha d)
      clear hf ht ha hc hp hl hr
      rcases hm with ⟨i, rfl, hi⟩ | ⟨i, a, rfl, hi, hi'⟩ <;> pinv h
    · intro y d hd
      simp only [St.upd] at hd
      split at hd
      · rcases List.mem_cons.1 hd with rfl | hd
        · exact ha _ List.mem_cons_self
        · exact hna y d hd
      · exact hna y d hd

/-- the clock is set back -/
theorem p_adjust {s : St} {due : Nat → Int} {sh : Int} (h : PInv s due sh) (here : Option Nat) (d t : Int) (hd : d < 0)
    (hnt : ∀ x i a, Note.timer i a ∉ (s.sel x).inbox) (hnf : ∀ x i a, Note.fwd i a ∉ (s.sel x).inbox) (hnr : ∀ i a, Note.fwd i a ∉ s.ready) :
    PInv { (adjust s here d).log [.clock t] with clock := t } due (sh + d) := by
  have hot : ∀ j, OnTime j s.hist → OnTime j (s.hist ++ [.clock t]) := fun j hj => onTime_append hj _
  have hsel : ∀ x, ((adjust s here d).sel x).firing = (s.sel x).firing ∧ ((adjust s here d).sel x).closed = (s.sel x).closed ∧
      ((adjust s here d).sel x).shutdown = (s.sel x).shutdown ∧ ((adjust s here d).sel x).destroyed = (s.sel x).destroyed ∧
      (∀ m, m ∈ ((adjust s here d).sel x).inbox → m ∈ (s.sel x).inbox ∨ m = .adjust d) ∧
      (s.inRange x = false → (adjust s here d).sel x = s.sel x) ∧
      (∀ i a, (i, a) ∈ ((adjust s here d).sel x).timers → s.inRange x = true → ∃ b, (i, b) ∈ (s.sel x).timers ∧ a + pend ((adjust s here d).sel x).inbox = b + pend (s.sel x).inbox + d) := by
    intro x
    simp only [adjust]
    split
    · rename_i hx
      split
      · refine ⟨rfl, rfl, rfl, rfl, fun m hm => .inl hm, fun h => (by rw [hx] at h; cases h), ?_⟩
        intro i a hi _
        simp only [List.mem_map, Prod.mk.injEq] at hi
        obtain ⟨p, hp, rfl, rfl⟩ := hi
        exact ⟨p.2, hp, by dsimp only; omega⟩
      · refine ⟨rfl, rfl, rfl, rfl, fun m hm => ?_, fun h => (by rw [hx] at h; cases h), ?_⟩
        · rcases List.mem_cons.1 hm with h | h
          · exact .inr h
          · exact .inl h
        · intro i a hi _
          exact ⟨a, hi, by simp only [pend_adjust]; omega⟩
    · rename_i hx
      have hx : s.inRange x = false := by simpa using hx
      exact ⟨rfl, rfl, rfl, rfl, fun m hm => .inl hm, fun _ => rfl, fun i a _ h => (by rw [hx] at h; cases h)⟩
  have hother : (adjust s here d).n = s.n ∧ (adjust s here d).ready = s.ready ∧ (adjust s here d).mid = s.mid ∧ (adjust s here d).hist = s.hist := ⟨rfl, rfl, rfl, rfl⟩
  obtain ⟨o1, o2, o3, o4⟩ := hother
  generalize adjust s here d = A at *
  have htim : ∀ x i a, (i, a) ∈ (A.sel x).timers → ∃ b, (i, b) ∈ (s.sel x).timers ∧ a + pend (A.sel x).inbox = b + pend (s.sel x).inbox + d := by
    intro x i a hi
    cases hx : s.inRange x with
    | true => exact (hsel x).2.2.2.2.2.2 i a hi hx
    | false => rw [(hsel x).2.2.2.2.2.1 hx, (h.oof x hx).2.1] at hi; cases hi
  have hno : ∀ x i a, Note.timer i a ∉ (A.sel x).inbox := fun x i a hi => by
    rcases (hsel x).2.2.2.2.1 _ hi with h1 | h1
    · exact hnt x i a h1
    · cases h1
  have hno' : ∀ x i a, Note.fwd i a ∉ (A.sel x).inbox := fun x i a hi => by
    rcases (hsel x).2.2.2.2.1 _ hi with h1 | h1
    · exact hnf x i a h1
    · cases h1
  have hcal : ∀ x i, Note.call i ∈ (A.sel x).inbox → Note.call i ∈ (s.sel x).inbox := fun x i hi => by
    rcases (hsel x).2.2.2.2.1 _ hi with h1 | h1
    · exact h1
    · cases h1
  constructor <;> simp only [St.log, o1, o2, o3, o4]
  · intro x i a hi
    obtain ⟨b, hb, he⟩ := htim x i a hi
    have := h.tin x i b hb
    omega
  · exact fun x i a hi => absurd hi (hno x i a)
  · exact fun x i a hi => absurd hi (hno' x i a)
  · exact fun x i a hi => absurd hi (hno x i a)
  · exact fun x i a hi => absurd hi (hno' x i a)
  · exact fun i a hi => absurd hi (hnr i a)
  · exact h.rtm
  · exact h.rad
  · intro x e he
    rcases (hsel x).2.2.2.2.1 _ he with h1 | h1
    · exact h.neg x e h1
    · cases h1; exact hd
  · exact fun x i hi => List.mem_append_left _ (h.kc x i (hcal x i hi))
  · exact fun i hi => List.mem_append_left _ (h.kr i hi)
  · exact fun i hi => List.mem_append_left _ (h.km i hi)
  · intro x i a hi
    obtain ⟨b, hb, _⟩ := htim x i a hi
    obtain ⟨m, hm⟩ := h.kt x i b hb
    exact ⟨m, List.mem_append_left _ hm⟩
  · intro x i hi
    rw [(hsel x).1] at hi
    exact hot i (h.fir x i hi)
  · exact h.rdn
  · intro x; rw [(hsel x).2.1, (hsel x).2.2.1, (hsel x).2.2.2.1]; exact h.noc x
  · intro i hi
    rcases List.mem_append.1 hi with h1 | h1
    · exact h.nor i h1
    · simp at h1
  · rintro x i a (hi | hi)
    · exact absurd hi (hno x i a)
    · exact absurd hi (hno' x i a)
  · exact fun i a hi => absurd hi (hnr i a)
  · intro x hx
    have hx' : s.inRange x = false := by simpa [St.inRange, o1] using hx
    rw [(hsel x).2.2.2.2.2.1 hx']
    exact h.oof x hx'

end Kasync.Mlife
