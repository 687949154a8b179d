import Verif.Sel.Tick
import Verif.KList.Props

/-!
# C57: ticks
-/

namespace Kasync.Tick

open KList (Mem IsList)

/-! ## Specification: on what happens -/

/-- The ticks registered after `h`, in the order of their registration. -/
def regOf (h : List Ev) : List Nat :=
  h.foldl (fun l e => match e with
    | .registered i => l ++ [i]
    | .closed i => l.filter (· ≠ i)
    | _ => l) []

/-- Registrations, closings, calls and returned numbers in `h`. -/
def regIn (h : List Ev) : List Nat := h.filterMap fun | .registered i => some i | _ => none
def closedIn (h : List Ev) : List Nat := h.filterMap fun | .closed i => some i | _ => none
def calledIn (h : List Ev) : List Nat := h.filterMap fun | .called i _ _ _ => some i | _ => none
def returnedIn (h : List Ev) : List Int := h.filterMap fun | .returned v => some v | _ => none
def createdIn (h : List Ev) : List Nat := h.filterMap fun | .created i _ _ => some i | _ => none

/-- What a round must be. -/
structure RoundOk (r : Round) : Prop where
  /-- it begins with the number of events -/
  began : ∃ t, r.mid = .began r.ev :: t
  /-- no tick is called twice -/
  once : (calledIn r.mid).Nodup
  /-- every tick registered at the beginning is called, unless it is closed meanwhile -/
  all : ∀ i ∈ regOf r.past, i ∈ calledIn r.mid ∨ i ∈ closedIn r.mid
  /-- in the order of registration -/
  order : (calledIn r.mid).Sublist (regOf r.past ++ regIn r.mid)
  /-- only registered ticks that are not closed are called, with the function and argument they were created with and the number of events -/
  valid : ∀ a b i fn arg n, r.mid = a ++ .called i fn arg n :: b → i ∈ regOf (r.past ++ a) ∧ i ∉ closedIn (r.past ++ a) ∧
    .created i fn arg ∈ r.past ++ a ∧ n = r.ev
  /-- the selector then waits at most 100 ms and at most as long as each callback asked for (positive numbers), and not less than necessary -/
  tmo_pos : 0 < r.tmo ∧ r.tmo ≤ 100
  tmo_le : ∀ v ∈ returnedIn r.mid, 0 < v → r.tmo ≤ v
  tmo_eq : r.tmo = 100 ∨ r.tmo ∈ returnedIn r.mid

/-- Rules for programs: a tick is registered once and not used after it was closed; a callback does not close the tick that would be called after it. -/
def Disc (s : St) : Op → Prop
  | .register a => s.mem.valid a = true ∧ a ≠ HEAD ∧ s.id a ∉ regOf (s.past ++ s.mid)
  | .close a => s.mem.valid a = true ∧ a ≠ HEAD ∧ s.pos ≠ some a
  | _ => True

inductive Reach : St → Prop where
  | init : Reach init
  | step {s s'} (o : Op) : Reach s → Disc s o → Tick.step s o = .ok s' → Reach s'

/-! ## Lemmas on histories -/

theorem regOf_snoc (h : List Ev) (e : Ev) : regOf (h ++ [e]) = match e with
    | .registered i => regOf h ++ [i]
    | .closed i => (regOf h).filter (· ≠ i)
    | _ => regOf h := by
  simp [regOf, List.foldl_append]

theorem regOf_sub (h : List Ev) : (regOf h).Sublist (regIn h) := by
  have : ∀ n (h : List Ev), h.length = n → (regOf h).Sublist (regIn h) := by
    intro n
    induction n with
    | zero => intro h hn; rw [List.length_eq_zero_iff.1 hn]; exact List.Sublist.refl _
    | succ n ih =>
      intro h hn
      have hne : h ≠ [] := by intro e; rw [e] at hn; simp at hn
      have e := (List.dropLast_concat_getLast hne).symm
      rw [e, regOf_snoc]
      have hi := ih h.dropLast (by simp [hn])
      simp only [regIn, List.filterMap_append] at hi ⊢
      split
      · rename_i heq
        simp only [List.filterMap_cons, heq, List.filterMap_nil]
        exact List.Sublist.append hi (List.Sublist.refl _)
      · rename_i heq
        simp only [List.filterMap_cons, heq, List.filterMap_nil, List.append_nil]
        exact (List.filter_sublist ..).trans hi
      · exact hi.trans (List.sublist_append_left _ _)
  exact this _ h rfl

/-! ## The invariant -/

/-- what holds between a call and its return -/
structure Mid (s : St) (xs : List Nat) (n : Nat) (rest : List Nat) : Prop where
  began : ∃ t, s.mid = .began s.ev :: t
  split : ∃ done, xs = done ++ rest
  nxt : n = (rest ++ [HEAD]).head (by simp)
  all : ∀ i ∈ regOf s.past, i ∈ calledIn s.mid ∨ i ∈ closedIn s.mid ∨ i ∈ rest.map s.id
  order : (calledIn s.mid ++ rest.map s.id).Sublist (regOf s.past ++ regIn s.mid)
  valid : ∀ a b i fn arg k, s.mid = a ++ .called i fn arg k :: b → i ∈ regOf (s.past ++ a) ∧ i ∉ closedIn (s.past ++ a) ∧
    .created i fn arg ∈ s.past ++ a ∧ k = s.ev
  tmo_pos : 0 < s.min ∧ s.min ≤ 100
  tmo_le : ∀ v ∈ returnedIn s.mid, 0 < v → s.min ≤ v
  tmo_eq : s.min = 100 ∨ s.min ∈ returnedIn s.mid

structure Inv (s : St) (xs : List Nat) : Prop where
  list : IsList s.mem HEAD xs
  reg : xs.map s.id = regOf (s.past ++ s.mid)
  live : ∀ a, s.mem.valid a = true → a ≠ HEAD → a ∉ xs → IsList s.mem a []
  ids : ∀ a, s.mem.valid a = true → a ≠ HEAD → s.id a < s.nextId
  inj : ∀ a b, s.mem.valid a = true → a ≠ HEAD → s.mem.valid b = true → b ≠ HEAD → s.id a = s.id b → a = b
  hist : ∀ i ∈ regIn (s.past ++ s.mid), i < s.nextId
  nodup : (regIn (s.past ++ s.mid)).Nodup
  once : ∀ a, s.mem.valid a = true → a ≠ HEAD → s.id a ∈ regIn (s.past ++ s.mid) → a ∈ xs
  data : ∀ a, s.mem.valid a = true → a ≠ HEAD → .created (s.id a) (s.data a).1 (s.data a).2 ∈ s.past ++ s.mid
  made : createdIn (s.past ++ s.mid) = List.range s.nextId
  opn : ∀ a, s.mem.valid a = true → a ≠ HEAD → s.id a ∉ closedIn (s.past ++ s.mid)
  clt : ∀ i ∈ closedIn (s.past ++ s.mid), i < s.nextId
  mid : ∀ n, s.pos = some n → ∃ rest, Mid s xs n rest
  rounds : ∀ r ∈ s.rounds, RoundOk r

theorem inv_init : Inv init [] := by
  refine ⟨⟨by simp [init], by simp, by simp [KList.Path, init]⟩, rfl, ?_, ?_, ?_, by simp [init, regIn], by simp [init, regIn], ?_, ?_, rfl, ?_, ?_, ?_, ?_⟩
  all_goals simp_all [init, closedIn]

theorem snoc_split {α : Type} {m a b : List α} {e c : α} (h : m ++ [e] = a ++ c :: b) :
    (b = [] ∧ e = c ∧ m = a) ∨ ∃ b', b = b' ++ [e] ∧ m = a ++ c :: b' := by
  cases hb : b.reverse with
  | nil =>
    rw [List.reverse_eq_nil_iff] at hb
    subst hb
    have := List.append_inj' h rfl
    exact .inl ⟨rfl, by simpa using this.2, this.1⟩
  | cons x t =>
    have hb : b = t.reverse ++ [x] := by rw [← List.reverse_reverse b, hb]; simp
    subst hb
    have h' : m ++ [e] = (a ++ c :: t.reverse) ++ [x] := by simpa using h
    have := List.append_inj' h' rfl
    simp only [List.cons.injEq, and_true] at this
    exact .inr ⟨t.reverse, by rw [this.2], this.1⟩

theorem next_of {m : Mem} {p : Nat} {done rest : List Nat} (h : IsList m HEAD (done ++ p :: rest)) :
    m.getNext p = some ((rest ++ [HEAD]).head (by simp)) := by
  obtain ⟨hv, _, hp⟩ := h
  have e : HEAD :: (done ++ p :: rest) ++ [HEAD] = (HEAD :: done) ++ p :: (rest ++ [HEAD]) := by simp
  rw [e, KList.path_split] at hp
  have h2 := hp.2
  have hvp : m.valid p = true := hv p (by simp)
  simp only [Mem.getNext, hvp, if_true]
  cases rest with
  | nil => simp only [List.nil_append, KList.Path] at h2; simp [h2.1]
  | cons r rest => simp only [List.cons_append, KList.Path] at h2; simp [h2.1]

theorem began_snoc {m : List Ev} {n : Int} (h : ∃ t, m = .began n :: t) (e : Ev) : ∃ t, m ++ [e] = .began n :: t := by
  obtain ⟨t, rfl⟩ := h; exact ⟨t ++ [e], rfl⟩

theorem calledIn_snoc (h : List Ev) (e : Ev) : calledIn (h ++ [e]) = calledIn h ++ (match e with | .called i _ _ _ => [i] | _ => []) := by
  cases e <;> simp [calledIn]
theorem regIn_snoc (h : List Ev) (e : Ev) : regIn (h ++ [e]) = regIn h ++ (match e with | .registered i => [i] | _ => []) := by
  cases e <;> simp [regIn]
theorem closedIn_snoc (h : List Ev) (e : Ev) : closedIn (h ++ [e]) = closedIn h ++ (match e with | .closed i => [i] | _ => []) := by
  cases e <;> simp [closedIn]
theorem returnedIn_snoc (h : List Ev) (e : Ev) : returnedIn (h ++ [e]) = returnedIn h ++ (match e with | .returned i => [i] | _ => []) := by
  cases e <;> simp [returnedIn]
theorem createdIn_snoc (h : List Ev) (e : Ev) : createdIn (h ++ [e]) = createdIn h ++ (match e with | .created i _ _ => [i] | _ => []) := by
  cases e <;> simp [createdIn]

/-- The events that change nothing about which ticks there are. -/
def Quiet : Ev → Prop
  | .called .. | .returned _ | .began _ => True
  | _ => False

theorem Inv.quiet {s : St} {xs : List Nat} (h : Inv { s with pos := none } xs) {e : Ev} (he : Quiet e) :
    Inv { s.emit e with pos := none } xs := by
  obtain ⟨h1, h2, h3, h4, h5, h6, h7, h8, h9, h10, h13, h14, h11, h12⟩ := h
  have ea : s.past ++ (s.mid ++ [e]) = (s.past ++ s.mid) ++ [e] := by simp
  refine ⟨h1, ?_, h3, h4, h5, ?_, ?_, ?_, ?_, ?_, ?_, ?_, by simp, h12⟩ <;> try dsimp only [St.emit] at * <;> rw [ea]
  · rw [h2, regOf_snoc]; cases e <;> first | rfl | cases he
  · rw [regIn_snoc]; cases e <;> first | (simpa using h6) | cases he
  · rw [regIn_snoc]; cases e <;> first | (simpa using h7) | cases he
  · rw [regIn_snoc]; cases e <;> first | (simpa using h8) | cases he
  · intro a ha hn; exact List.mem_append_left _ (h9 a ha hn)
  · rw [createdIn_snoc, h10]; cases e <;> first | (cases he; done) | simp
  · rw [closedIn_snoc]; cases e <;> first | (simpa using h13) | cases he
  · rw [closedIn_snoc]; cases e <;> first | (simpa using h14) | cases he

theorem Inv.enter {s s' : St} {xs rest : List Nat} {p : Nat} (h : Inv { s with pos := none } xs) (hm : Mid s xs p rest) (he : enter s p = .ok s') :
    Inv s' xs := by
  unfold Tick.enter at he
  obtain ⟨done, hd⟩ := hm.split
  split at he
  · rename_i hp
    simp only [Res.ok.injEq] at he
    have hr : rest = [] := by
      cases rest with
      | nil => rfl
      | cons r rest =>
        have h1 := hm.nxt
        simp only [List.cons_append, List.head_cons] at h1
        have := h.list.2.1
        rw [hd, ← h1, hp] at this
        simp at this
    have hmid : RoundOk ⟨s.past, s.mid, s.ev, s.min⟩ := by
      have hs := hm.order
      rw [hr] at hs
      simp only [List.map_nil, List.append_nil] at hs
      refine ⟨hm.began, ?_, ?_, hs, hm.valid, hm.tmo_pos, hm.tmo_le, hm.tmo_eq⟩
      · refine hs.nodup ?_
        have h7 := h.nodup
        dsimp only at h7
        simp only [regIn, List.filterMap_append] at h7
        exact (List.Sublist.append (regOf_sub s.past) (List.Sublist.refl (regIn s.mid))).nodup h7
      · intro i hi
        have := hm.all i hi
        rw [hr] at this
        simpa using this
    subst he
    obtain ⟨h1, h2, h3, h4, h5, h6, h7, h8, h9, h10, h13, h14, h11, h12⟩ := h
    refine ⟨h1, by simpa using h2, h3, h4, h5, by simpa using h6, by simpa using h7, by simpa using h8, by simpa using h9, by simpa using h10,
      by simpa using h13, by simpa using h14, by simp, ?_⟩
    intro r hr'
    rcases List.mem_append.1 hr' with hr' | hr'
    · exact h12 r hr'
    · simp only [List.mem_singleton] at hr'; rw [hr']; exact hmid
  · rename_i hp
    obtain ⟨rest', hr⟩ : ∃ rest', rest = p :: rest' := by
      cases rest with
      | nil => exact absurd (by simpa using hm.nxt) hp
      | cons r rest => exact ⟨rest, by have := hm.nxt; simp at this; rw [this]⟩
    subst hr
    have hl : IsList s.mem HEAD (done ++ p :: rest') := hd ▸ h.list
    rw [next_of hl] at he
    simp only [Res.ok.injEq] at he
    subst he
    have hpv : s.mem.valid p = true := hl.1 p (by simp)
    have hq := h.quiet (e := .called (s.id p) (s.data p).1 (s.data p).2 s.ev) trivial
    obtain ⟨h1, h2, h3, h4, h5, h6, h7, h8, h9, h10, h13, h14, h11, h12⟩ := hq
    refine ⟨h1, h2, h3, h4, h5, h6, h7, h8, h9, h10, h13, h14, ?_, h12⟩
    intro n hn
    simp only [Option.some.injEq] at hn
    refine ⟨rest', ⟨began_snoc hm.began _, ⟨done ++ [p], by simp [hd]⟩, hn.symm, ?_, ?_, ?_, hm.tmo_pos, ?_, ?_⟩⟩ <;> try dsimp only [St.emit]
    · intro i hi
      rw [calledIn_snoc, closedIn_snoc]
      have := hm.all i hi
      simp only [List.map_cons, List.mem_cons, List.mem_append, List.append_nil, List.not_mem_nil, or_false] at this ⊢
      grind
    · rw [calledIn_snoc, regIn_snoc]
      simpa using hm.order
    · intro a b i fn arg k hx
      rcases snoc_split hx with ⟨_, hc, ha⟩ | ⟨b', _, ha⟩
      · simp only [Ev.called.injEq] at hc
        obtain ⟨rfl, rfl, rfl, rfl⟩ := hc
        rw [← ha]
        refine ⟨?_, h.opn p hpv hp, h.data p hpv hp, rfl⟩
        have h2' := h.reg
        dsimp only at h2'
        rw [← h2', hd]
        simp
      · exact hm.valid a b' i fn arg k ha
    · rw [returnedIn_snoc]; simpa using hm.tmo_le
    · rw [returnedIn_snoc]; simpa using hm.tmo_eq

/-- Removing a tick, registered or not. -/
theorem remove_tick {m : Mem} {xs : List Nat} {a : Nat} (hl : IsList m HEAD xs) (hlive : ∀ b, m.valid b = true → b ≠ HEAD → b ∉ xs → IsList m b [])
    (hv : m.valid a = true) (hne : a ≠ HEAD) :
    ∃ m', KList.remove m a = some m' ∧ m'.valid = m.valid ∧ IsList m' HEAD (xs.filter (· ≠ a)) ∧
      ∀ b, m.valid b = true → b ≠ HEAD → b ≠ a → b ∉ xs.filter (· ≠ a) → IsList m' b [] := by
  by_cases ha : a ∈ xs
  · obtain ⟨as, bs, rfl⟩ := List.append_of_mem ha
    obtain ⟨m', e, hl', hv', _, _⟩ := KList.klist_remove_deletes m HEAD a as bs hl
    have hnd := hl.2.1
    have hf : (as ++ a :: bs).filter (· ≠ a) = as ++ bs := by
      have h1 : ∀ x ∈ as, x ≠ a := by rintro x hx rfl; simp [List.nodup_append] at hnd; grind
      have h2 : ∀ x ∈ bs, x ≠ a := by rintro x hx rfl; simp [List.nodup_append] at hnd; grind
      rw [List.filter_append, List.filter_cons]
      simp only [ne_eq, not_true_eq_false, decide_false, Bool.false_eq_true, if_false]
      rw [List.filter_eq_self.2 (by simpa using h1), List.filter_eq_self.2 (by simpa using h2)]
    rw [hf]
    refine ⟨m', e, hv', hl', ?_⟩
    intro b hb hbh hba hbx
    have hbx' : b ∉ as ++ a :: bs := by simp only [List.mem_append, List.mem_cons] at hbx ⊢; grind
    refine (KList.klist_frame m m' HEAD a _ b [] (hlive b hb hbh hbx') ?_).2 hl (by simp) e
    intro x hx
    simp only [List.mem_singleton] at hx
    subst hx
    simp only [List.mem_cons]
    rintro (h | h)
    · exact hbh h
    · exact hbx' h
  · have hs := hlive a hv hne ha
    have hp := hs.2.2
    simp only [List.cons_append, List.nil_append, KList.Path] at hp
    have hf : xs.filter (· ≠ a) = xs := List.filter_eq_self.2 (by simp; rintro x hx rfl; exact ha hx)
    rw [hf]
    refine ⟨⟨m.valid, fun x => if x = a then a else m.next x, fun x => if x = a then a else m.prev x⟩, ?_, rfl, ?_, ?_⟩
    · simp [KList.remove, Mem.getPrev, Mem.getNext, Mem.setNext, Mem.setPrev, hv, hp.1, hp.2.1]
    · refine KList.isList_frame (m := m) (fun _ _ => rfl) ?_ hl
      intro x hx
      have : x ≠ a := by rintro rfl; exact (List.mem_cons.1 hx).elim hne ha
      simp [this]
    · intro b hb hbh hba hbx
      refine KList.isList_frame (m := m) (fun _ _ => rfl) ?_ (hlive b hb hbh hbx)
      intro x hx
      simp only [List.mem_singleton] at hx
      subst hx
      simp [hba]

theorem Inv.step {s s' : St} {xs : List Nat} (h : Inv s xs) (o : Op) (hd : Disc s o) (he : Tick.step s o = .ok s') : ∃ xs', Inv s' xs' := by
  cases o with
  | new a fn arg =>
    simp only [Tick.step] at he
    split at he
    · cases he
    rename_i hc
    simp only [not_or] at hc
    obtain ⟨hna, h0, hh⟩ := hc
    obtain ⟨m', e, hl', _, hv', hfr⟩ := KList.klist_init_empty { s.mem with valid := fun x => if x = a then true else s.mem.valid x } a (by simp)
    rw [e] at he
    simp only [Res.ok.injEq] at he
    subst he
    obtain ⟨h1, h2, h3, h4, h5, h6, h7, h8, h9, h10, h13, h14, h11, h12⟩ := h
    have hax : a ∉ HEAD :: xs := fun hx => hna (h1.1 a hx)
    have hidx : ∀ l : List Nat, a ∉ l → l.map (fun x => if x = a then s.nextId else s.id x) = l.map s.id := by
      intro l hl
      refine List.map_congr_left fun x hx => ?_
      have : x ≠ a := by rintro rfl; exact hl hx
      simp [this]
    have ea : s.past ++ (s.mid ++ [Ev.created s.nextId fn arg]) = (s.past ++ s.mid) ++ [Ev.created s.nextId fn arg] := by simp
    have frame : ∀ l ys, a ∉ l :: ys → IsList s.mem l ys → IsList m' l ys := by
      intro l ys hl hi
      refine KList.isList_frame (m := s.mem) ?_ ?_ hi
      · intro x hx
        have : x ≠ a := by rintro rfl; exact hl hx
        rw [hv']; simp [this]
      · intro x hx
        have : x ≠ a := by rintro rfl; exact hl hx
        exact hfr x this
    refine ⟨xs, frame _ _ hax h1, ?_, ?_, ?_, ?_, ?_, ?_, ?_, ?_, ?_, ?_, ?_, ?_, h12⟩ <;> try dsimp only [] <;> try rw [ea]
    · rw [hidx xs (fun hx => hax (List.mem_cons_of_mem _ hx)), h2, regOf_snoc]
    · intro b hb hbh hbx
      by_cases hba : b = a
      · subst hba; exact hl'
      · rw [hv'] at hb
        simp only [hba, if_false] at hb
        exact frame _ _ (by simp only [List.mem_singleton]; exact fun e => hba e.symm) (h3 b hb hbh hbx)
    · intro b hb hbh
      rw [hv'] at hb
      by_cases hba : b = a
      · simp [hba]
      · simp only [hba, if_false] at hb ⊢
        exact Nat.lt_succ_of_lt (h4 b hb hbh)
    · intro b c hb hbh hc hch hid
      rw [hv'] at hb hc
      by_cases hba : b = a <;> by_cases hca : c = a <;> simp only [hba, hca, if_true, if_false] at hb hc hid ⊢
      · exact absurd (h4 c hc hch) (by omega)
      · exact absurd (h4 b hb hbh) (by omega)
      · exact h5 b c hb hbh hc hch hid
    · rw [regIn_snoc]
      intro i hi
      simp only [List.append_nil] at hi
      exact Nat.lt_succ_of_lt (h6 i hi)
    · rw [regIn_snoc]; simpa using h7
    · rw [regIn_snoc]
      intro b hb hbh hi
      rw [hv'] at hb
      simp only [List.append_nil] at hi
      by_cases hba : b = a
      · simp only [hba, if_true] at hi
        exact absurd (h6 _ hi) (by omega)
      · simp only [hba, if_false] at hb hi
        exact h8 b hb hbh hi
    · intro b hb hbh
      rw [hv'] at hb
      by_cases hba : b = a
      · simp [hba]
      · simp only [hba, if_false] at hb ⊢
        exact List.mem_append_left _ (h9 b hb hbh)
    · rw [createdIn_snoc, h10, List.range_succ]
    · rw [closedIn_snoc]
      intro b hb hbh hi
      rw [hv'] at hb
      simp only [List.append_nil] at hi
      by_cases hba : b = a
      · simp only [hba, if_true] at hi
        exact absurd (h14 _ hi) (by omega)
      · simp only [hba, if_false] at hb hi
        exact h13 b hb hbh hi
    · rw [closedIn_snoc]
      intro i hi
      simp only [List.append_nil] at hi
      exact Nat.lt_succ_of_lt (h14 i hi)
    · intro n hn
      obtain ⟨rest, hm⟩ := h11 n hn
      obtain ⟨done, hsp⟩ := hm.split
      have har : a ∉ rest := fun hx => hax (by rw [hsp]; simp [hx])
      refine ⟨rest, ⟨began_snoc hm.began _, ⟨done, hsp⟩, hm.nxt, ?_, ?_, ?_, hm.tmo_pos, ?_, ?_⟩⟩ <;> try dsimp only []
      · rw [calledIn_snoc, closedIn_snoc, hidx rest har]; simpa using hm.all
      · rw [calledIn_snoc, regIn_snoc, hidx rest har]; simpa using hm.order
      · intro x y i fn' arg' k hx
        rcases snoc_split hx with ⟨_, hc, _⟩ | ⟨b', _, ha⟩
        · cases hc
        · exact hm.valid x b' i fn' arg' k ha
      · rw [returnedIn_snoc]; simpa using hm.tmo_le
      · rw [returnedIn_snoc]; simpa using hm.tmo_eq
  | register a =>
    obtain ⟨hva, hh, hreg⟩ := hd
    simp only [Tick.step] at he
    have hax : a ∉ xs := fun hx => hreg (by rw [← h.reg]; exact List.mem_map.2 ⟨a, hx, rfl⟩)
    have hn : a ∉ HEAD :: xs := by simp only [List.mem_cons, not_or]; exact ⟨hh, hax⟩
    obtain ⟨m', e, hl', hv', _⟩ := KList.klist_insert_appends s.mem HEAD a xs h.list hva hn
    rw [e] at he
    simp only [Res.ok.injEq] at he
    subst he
    have hnr : s.id a ∉ regIn (s.past ++ s.mid) := fun hx => hax (h.once a hva hh hx)
    obtain ⟨h1, h2, h3, h4, h5, h6, h7, h8, h9, h10, h13, h14, h11, h12⟩ := h
    have ea : s.past ++ (s.mid ++ [Ev.registered (s.id a)]) = (s.past ++ s.mid) ++ [Ev.registered (s.id a)] := by simp
    refine ⟨xs ++ [a], hl', ?_, ?_, ?_, ?_, ?_, ?_, ?_, ?_, ?_, ?_, ?_, ?_, h12⟩ <;> try dsimp only [St.emit] <;> try rw [ea]
    · rw [regOf_snoc]; simp [h2]
    · intro b hb hbh hbx
      rw [hv'] at hb
      simp only [List.mem_append, List.mem_singleton, not_or] at hbx
      refine (KList.klist_frame s.mem m' HEAD a xs b [] (h3 b hb hbh hbx.1) ?_).1 h1 hva hn ?_ e
      · intro x hx
        simp only [List.mem_singleton] at hx
        subst hx
        simp only [List.mem_cons, not_or]; exact ⟨hbh, hbx.1⟩
      · simp only [List.mem_singleton]; exact fun e => hbx.2 e.symm
    · rw [hv']; exact h4
    · rw [hv']; exact h5
    · rw [regIn_snoc]
      intro i hi
      simp only [List.mem_append, List.mem_singleton] at hi
      rcases hi with hi | rfl
      · exact h6 i hi
      · exact h4 a hva hh
    · rw [regIn_snoc, List.nodup_append]
      refine ⟨h7, by simp, ?_⟩
      intro x hx y hy
      simp only [List.mem_singleton] at hy
      rintro rfl
      exact hnr (hy ▸ hx)
    · rw [hv', regIn_snoc]
      intro b hb hbh hi
      simp only [List.mem_append, List.mem_singleton] at hi ⊢
      rcases hi with hi | hi
      · exact .inl (h8 b hb hbh hi)
      · exact .inr (h5 b a hb hbh hva hh hi)
    · rw [hv']
      intro b hb hbh
      exact List.mem_append_left _ (h9 b hb hbh)
    · rw [createdIn_snoc, h10]; simp
    · rw [hv', closedIn_snoc]; simpa using h13
    · rw [closedIn_snoc]; simpa using h14
    · intro n hn'
      obtain ⟨rest, hm⟩ := h11 n hn'
      obtain ⟨done, hsp⟩ := hm.split
      have hval : ∀ x y i fn' arg' k, s.mid ++ [Ev.registered (s.id a)] = x ++ .called i fn' arg' k :: y →
          i ∈ regOf (s.past ++ x) ∧ i ∉ closedIn (s.past ++ x) ∧ .created i fn' arg' ∈ s.past ++ x ∧ k = s.ev := by
        intro x y i fn' arg' k hx
        rcases snoc_split hx with ⟨_, hc, _⟩ | ⟨b', _, ha⟩
        · cases hc
        · exact hm.valid x b' i fn' arg' k ha
      by_cases hr : rest = []
      · subst hr
        refine ⟨[], ⟨began_snoc hm.began _, ⟨xs ++ [a], by simp⟩, hm.nxt, ?_, ?_, hval, hm.tmo_pos, ?_, ?_⟩⟩ <;> try dsimp only [St.emit]
        · rw [calledIn_snoc, closedIn_snoc]; simpa using hm.all
        · rw [calledIn_snoc, regIn_snoc]
          have := hm.order
          simp only [List.map_nil, List.append_nil] at this ⊢
          rw [← List.append_assoc]
          exact this.trans (List.sublist_append_left _ _)
        · rw [returnedIn_snoc]; simpa using hm.tmo_le
        · rw [returnedIn_snoc]; simpa using hm.tmo_eq
      · refine ⟨rest ++ [a], ⟨began_snoc hm.began _, ⟨done, by simp [hsp]⟩, ?_, ?_, ?_, hval, hm.tmo_pos, ?_, ?_⟩⟩ <;> try dsimp only [St.emit]
        · rw [hm.nxt]
          cases rest with
          | nil => exact absurd rfl hr
          | cons r rest => rfl
        · rw [calledIn_snoc, closedIn_snoc]
          intro i hi
          have := hm.all i hi
          simp only [List.append_nil, List.map_append, List.mem_append]
          grind
        · rw [calledIn_snoc, regIn_snoc]
          have := List.Sublist.append hm.order (List.Sublist.refl [s.id a])
          simpa using this
        · rw [returnedIn_snoc]; simpa using hm.tmo_le
        · rw [returnedIn_snoc]; simpa using hm.tmo_eq
  | close a =>
    obtain ⟨hva, hh, hpos⟩ := hd
    simp only [Tick.step] at he
    obtain ⟨h1, h2, h3, h4, h5, h6, h7, h8, h9, h10, h13, h14, h11, h12⟩ := h
    obtain ⟨m', e, hv', hl', hlive⟩ := remove_tick h1 h3 hva hh
    rw [e] at he
    simp only [Res.ok.injEq] at he
    subst he
    have ea : s.past ++ (s.mid ++ [Ev.closed (s.id a)]) = (s.past ++ s.mid) ++ [Ev.closed (s.id a)] := by simp
    have frame : ∀ l ys, a ∉ l :: ys → IsList m' l ys → IsList { m' with valid := fun x => if x = a then false else m'.valid x } l ys := by
      intro l ys hl hi
      refine KList.isList_frame (m := m') ?_ ?_ hi
      · intro x hx
        have : x ≠ a := by rintro rfl; exact hl hx
        simp [this]
      · intro x hx; exact ⟨rfl, rfl⟩
    have hval : ∀ b, (if b = a then false else m'.valid b) = true → s.mem.valid b = true ∧ b ≠ a := by
      intro b hb
      split at hb
      · cases hb
      · exact ⟨hv' ▸ hb, ‹_›⟩
    have hmapf : ∀ l : List Nat, (∀ x ∈ l, s.mem.valid x = true ∧ x ≠ HEAD) → (l.filter (· ≠ a)).map s.id = (l.map s.id).filter (· ≠ s.id a) := by
      intro l hl
      rw [List.filter_map]
      congr 1
      refine List.filter_congr fun x hx => ?_
      obtain ⟨hx1, hx2⟩ := hl x hx
      by_cases hxa : x = a
      · simp [hxa]
      · have : s.id x ≠ s.id a := fun hid => hxa (h5 x a hx1 hx2 hva hh hid)
        simp [hxa, this]
    have hxs : ∀ x ∈ xs, s.mem.valid x = true ∧ x ≠ HEAD := by
      intro x hx
      refine ⟨h1.1 x (List.mem_cons_of_mem _ hx), ?_⟩
      rintro rfl
      exact (List.nodup_cons.1 h1.2.1).1 hx
    refine ⟨xs.filter (· ≠ a), frame _ _ ?_ hl', ?_, ?_, ?_, ?_, ?_, ?_, ?_, ?_, ?_, ?_, ?_, ?_, h12⟩ <;> try dsimp only [St.emit] <;> try rw [ea]
    · simp only [List.mem_cons, List.mem_filter, ne_eq, not_true_eq_false, decide_false, Bool.false_eq_true, and_false, or_false]; exact hh
    · rw [hmapf xs hxs, h2, regOf_snoc]
    · intro b hb hbh hbx
      obtain ⟨hb, hba⟩ := hval b hb
      exact frame _ _ (by simp only [List.mem_singleton]; exact fun e => hba e.symm) (hlive b hb hbh hba hbx)
    · intro b hb hbh; exact h4 b (hval b hb).1 hbh
    · intro b c hb hbh hc hch; exact h5 b c (hval b hb).1 hbh (hval c hc).1 hch
    · rw [regIn_snoc]; simpa using h6
    · rw [regIn_snoc]; simpa using h7
    · rw [regIn_snoc]
      intro b hb hbh hi
      simp only [List.append_nil] at hi
      obtain ⟨hb, hba⟩ := hval b hb
      rw [List.mem_filter]
      exact ⟨h8 b hb hbh hi, by simpa using hba⟩
    · intro b hb hbh
      exact List.mem_append_left _ (h9 b (hval b hb).1 hbh)
    · rw [createdIn_snoc, h10]; simp
    · rw [closedIn_snoc]
      intro b hb hbh hi
      obtain ⟨hb, hba⟩ := hval b hb
      simp only [List.mem_append, List.mem_singleton] at hi
      rcases hi with hi | hi
      · exact h13 b hb hbh hi
      · exact hba (h5 b a hb hbh hva hh hi)
    · rw [closedIn_snoc]
      intro i hi
      simp only [List.mem_append, List.mem_singleton] at hi
      rcases hi with hi | rfl
      · exact h14 i hi
      · exact h4 a hva hh
    · intro n hn'
      obtain ⟨rest, hm⟩ := h11 n hn'
      obtain ⟨done, hsp⟩ := hm.split
      have hrest : ∀ x ∈ rest, s.mem.valid x = true ∧ x ≠ HEAD := fun x hx => hxs x (by rw [hsp]; simp [hx])
      refine ⟨rest.filter (· ≠ a), ⟨began_snoc hm.began _, ⟨done.filter (· ≠ a), by rw [hsp, List.filter_append]⟩, ?_, ?_, ?_, ?_, hm.tmo_pos, ?_, ?_⟩⟩ <;> try dsimp only [St.emit]
      · rw [hm.nxt]
        cases rest with
        | nil => rfl
        | cons r rest =>
          have hra : r ≠ a := by
            rintro rfl
            have := hm.nxt
            simp only [List.cons_append, List.head_cons] at this
            exact hpos (by rw [hn', this])
          simp [hra]
      · rw [calledIn_snoc, closedIn_snoc, hmapf rest hrest]
        intro i hi
        have := hm.all i hi
        simp only [List.append_nil, List.mem_append, List.mem_singleton, List.mem_filter, ne_eq, decide_not, Bool.not_eq_true', decide_eq_false_iff_not]
        grind
      · rw [calledIn_snoc, regIn_snoc, hmapf rest hrest]
        simp only [List.append_nil]
        exact (List.Sublist.append (List.Sublist.refl _) List.filter_sublist).trans hm.order
      · intro x y i fn' arg' k hx
        rcases snoc_split hx with ⟨_, hc, _⟩ | ⟨b', _, ha⟩
        · cases hc
        · exact hm.valid x b' i fn' arg' k ha
      · rw [returnedIn_snoc]; simpa using hm.tmo_le
      · rw [returnedIn_snoc]; simpa using hm.tmo_eq
  | begin ev =>
    simp only [Tick.step] at he
    split at he
    · rename_i hpos
      obtain ⟨h1, h2, h3, h4, h5, h6, h7, h8, h9, h10, h13, h14, h11, h12⟩ := h
      have hv : s.mem.valid HEAD = true := h1.1 HEAD (by simp)
      have hnx : s.mem.getNext HEAD = some ((xs ++ [HEAD]).head (by simp)) := by
        have hp := h1.2.2
        simp only [Mem.getNext, hv, if_true]
        cases xs with
        | nil => simp only [List.cons_append, List.nil_append, KList.Path] at hp; simp [hp.1]
        | cons x xs => simp only [List.cons_append, KList.Path] at hp; simp [hp.1]
      rw [hnx] at he
      refine ⟨xs, Inv.enter (rest := xs) ?_ ?_ he⟩
      · have hq := Inv.quiet (s := { s with pos := none, past := s.past ++ s.mid, mid := [], ev := ev, min := 100 }) (xs := xs) (e := .began ev)
          ⟨h1, by simpa using h2, h3, h4, h5, by simpa using h6, by simpa using h7, by simpa using h8, by simpa using h9, by simpa using h10,
            by simpa using h13, by simpa using h14, by simp, h12⟩ trivial
        exact hq
      · refine ⟨⟨[], rfl⟩, ⟨[], rfl⟩, rfl, ?_, ?_, ?_, by simp, by simp [returnedIn], by simp⟩ <;> try dsimp only []
        · intro i hi; right; right; rw [h2]; exact hi
        · simp [calledIn, regIn, h2]
        · intro a b i fn arg k hx
          cases a with
          | nil => cases hx
          | cons y a => simp at hx
    · cases he
  | ret v =>
    simp only [Tick.step] at he
    split at he
    · cases he
    · rename_i p hpos
      obtain ⟨rest, hm⟩ := h.mid p hpos
      have h0 : Inv { s with pos := none } xs := by
        obtain ⟨h1, h2, h3, h4, h5, h6, h7, h8, h9, h10, h13, h14, h11, h12⟩ := h
        exact ⟨h1, h2, h3, h4, h5, h6, h7, h8, h9, h10, h13, h14, by simp, h12⟩
      have hq := h0.quiet (e := .returned v) trivial
      refine ⟨xs, Inv.enter (rest := rest) ?_ ?_ he⟩
      · obtain ⟨h1, h2, h3, h4, h5, h6, h7, h8, h9, h10, h13, h14, h11, h12⟩ := hq
        exact ⟨h1, h2, h3, h4, h5, h6, h7, h8, h9, h10, h13, h14, by simp, h12⟩
      · refine ⟨began_snoc hm.began _, hm.split, hm.nxt, ?_, ?_, ?_, ?_, ?_, ?_⟩ <;> try dsimp only [St.emit]
        · rw [calledIn_snoc, closedIn_snoc]; simpa using hm.all
        · rw [calledIn_snoc, regIn_snoc]; simpa using hm.order
        · intro x y i fn' arg' k hx
          rcases snoc_split hx with ⟨_, hc, _⟩ | ⟨b', _, ha⟩
          · cases hc
          · exact hm.valid x b' i fn' arg' k ha
        · have := hm.tmo_pos; split <;> omega
        · rw [returnedIn_snoc]
          intro w hw hw0
          simp only [List.mem_append, List.mem_singleton] at hw
          rcases hw with hw | rfl
          · have := hm.tmo_le w hw hw0
            split <;> omega
          · split <;> omega
        · rw [returnedIn_snoc]
          split
          · right; simp
          · rcases hm.tmo_eq with h | h
            · exact .inl h
            · right; simp [h]

theorem inv_reach {s : St} (h : Reach s) : ∃ xs, Inv s xs := by
  induction h with
  | init => exact ⟨[], inv_init⟩
  | step o _ hd he ih => obtain ⟨xs, hi⟩ := ih; exact hi.step o hd he

/-! ## C57 -/

/-- **C57.** Every round is right (`RoundOk`): each registered tick is called once, in the order of registration, with its own function and argument and the
number of events; closed ticks are not called; the time to wait is the least one asked for. -/
theorem tick_rounds {s : St} (h : Reach s) : ∀ r ∈ s.rounds, RoundOk r := by
  obtain ⟨xs, hi⟩ := inv_reach h
  exact hi.rounds

/-- **C57.** The same holds for a round that is not finished: no tick has been called twice, calls are in the order of registration and only to ticks that are
registered, and a tick registered at the beginning that was neither called nor closed is still registered. -/
theorem tick_running {s : St} (h : Reach s) (hr : s.pos ≠ none) :
    (calledIn s.mid).Nodup ∧ (calledIn s.mid).Sublist (regOf s.past ++ regIn s.mid) ∧
    (∀ a b i fn arg n, s.mid = a ++ .called i fn arg n :: b → i ∈ regOf (s.past ++ a) ∧ i ∉ closedIn (s.past ++ a) ∧ .created i fn arg ∈ s.past ++ a ∧ n = s.ev) ∧
    ∀ i ∈ regOf s.past, i ∈ calledIn s.mid ∨ i ∈ closedIn s.mid ∨ i ∈ regOf (s.past ++ s.mid) := by
  obtain ⟨xs, hi⟩ := inv_reach h
  cases hp : s.pos with
  | none => exact absurd hp hr
  | some n =>
    obtain ⟨rest, hm⟩ := hi.mid n hp
    have hs : (calledIn s.mid).Sublist (regOf s.past ++ regIn s.mid) := (List.sublist_append_left _ _).trans hm.order
    refine ⟨?_, hs, hm.valid, ?_⟩
    · have h7 := hi.nodup
      simp only [regIn, List.filterMap_append] at h7
      exact hs.nodup ((List.Sublist.append (regOf_sub s.past) (List.Sublist.refl (regIn s.mid))).nodup h7)
    · intro i hx
      rcases hm.all i hx with h | h | h
      · exact .inl h
      · exact .inr (.inl h)
      · right; right
        obtain ⟨done, hd⟩ := hm.split
        rw [← hi.reg, hd, List.map_append]
        exact List.mem_append_right _ h

/-- **C57.** Numbers of ticks are unique: what `RoundOk.valid` says about a creation is about the only one. -/
theorem tick_created_once {s : St} (h : Reach s) : (createdIn (s.past ++ s.mid)).Nodup := by
  obtain ⟨xs, hi⟩ := inv_reach h
  rw [hi.made]; exact List.nodup_range

theorem enter_no_ub {s : St} {xs rest : List Nat} {p : Nat} (h : IsList s.mem HEAD xs) (hs : ∃ done, xs = done ++ rest) (hn : p = (rest ++ [HEAD]).head (by simp)) :
    enter s p ≠ .ub := by
  unfold enter
  split
  · simp
  · rename_i hp
    obtain ⟨done, hs⟩ := hs
    cases rest with
    | nil => exact absurd (by simpa using hn) hp
    | cons r rest =>
      simp only [List.cons_append, List.head_cons] at hn
      subst hn
      rw [next_of (hs ▸ h)]
      simp

/-- **C57.** No step is undefined: ticks may be created, registered and closed (also by their own callback) at any time. -/
theorem tick_no_ub {s : St} (h : Reach s) (o : Op) (hd : Disc s o) : Tick.step s o ≠ .ub := by
  obtain ⟨xs, hi⟩ := inv_reach h
  cases o with
  | new a fn arg =>
    simp only [Tick.step]
    split
    · simp
    · obtain ⟨m', e, _⟩ := KList.klist_init_empty { s.mem with valid := fun x => if x = a then true else s.mem.valid x } a (by simp)
      rw [e]; simp
  | register a =>
    obtain ⟨hva, hh, hreg⟩ := hd
    have hax : a ∉ xs := fun hx => hreg (by rw [← hi.reg]; exact List.mem_map.2 ⟨a, hx, rfl⟩)
    obtain ⟨m', e, _⟩ := KList.klist_insert_appends s.mem HEAD a xs hi.list hva (by simp only [List.mem_cons, not_or]; exact ⟨hh, hax⟩)
    simp [Tick.step, e]
  | close a =>
    obtain ⟨hva, hh, _⟩ := hd
    obtain ⟨m', e, _⟩ := remove_tick hi.list hi.live hva hh
    simp [Tick.step, e]
  | begin ev =>
    have hv : s.mem.valid HEAD = true := hi.list.1 HEAD (by simp)
    have hp := hi.list.2.2
    simp only [Tick.step, Mem.getNext, hv, if_true]
    split
    · refine enter_no_ub (xs := xs) (rest := xs) hi.list ⟨[], rfl⟩ ?_
      cases xs with
      | nil => simp only [List.cons_append, List.nil_append, KList.Path] at hp; simp [hp.1]
      | cons x xs => simp only [List.cons_append, KList.Path] at hp; simp [hp.1]
    · simp
  | ret v =>
    simp only [Tick.step]
    split
    · simp
    · rename_i p hp
      obtain ⟨rest, hm⟩ := hi.mid p hp
      exact enter_no_ub hi.list hm.split hm.nxt

/-! ## Non-vacuity -/

/-- Three ticks; the first closes itself, the second registers a fourth one, the third asks for 7 ms. -/
def demo : List Op := [.new 10 1 100, .register 10, .new 20 2 200, .register 20, .new 30 3 300, .register 30, .begin 5,
  .close 10, .ret 0, .new 10 4 400, .register 10, .ret 50, .ret 7, .ret (-1), .begin 0, .ret 1, .ret 2, .ret 3]

example : (run Tick.step init demo).map (fun s => s.rounds.map fun r => (calledIn r.mid, r.tmo)) = some [([0, 1, 2, 3], 7), ([1, 2, 3], 1)] := by
  decide +kernel

instance (s : St) (o : Op) : Decidable (Disc s o) := by unfold Disc; split <;> infer_instance

/-- runs a list of operations that keep the rules -/
def runDisc (s : St) : List Op → Option St
  | [] => some s
  | o :: os => if Disc s o then match Tick.step s o with
      | .ok s' => runDisc s' os
      | _ => none
    else none

theorem reach_runDisc {s s' : St} (h : Reach s) {os : List Op} (hr : runDisc s os = some s') : Reach s' := by
  induction os generalizing s with
  | nil => simp only [runDisc, Option.some.injEq] at hr; subst hr; exact h
  | cons o os ih =>
    simp only [runDisc] at hr
    split at hr
    · rename_i h1
      split at hr
      · rename_i h2; exact ih (.step o h h1 h2) hr
      · cases hr
    · cases hr

example : ∃ s, Reach s ∧ s.rounds.length = 2 ∧ regOf s.past = [1, 2, 3] := by
  have h : (runDisc init demo).map (fun s => (s.rounds.length, regOf s.past)) = some (2, [1, 2, 3]) := by decide +kernel
  cases hr : runDisc init demo with
  | none => rw [hr] at h; cases h
  | some s =>
    rw [hr] at h
    simp only [Option.map_some, Option.some.injEq, Prod.mk.injEq] at h
    exact ⟨s, reach_runDisc .init hr, h.1, h.2⟩

/-! ## Findings -/

/-- **Finding (C57).** A callback that closes the tick registered after its own makes the selector go on in freed memory. -/
theorem close_next_undefined : ∃ s, run Tick.step init [.new 10 1 0, .register 10, .new 20 2 0, .register 20, .begin 0, .close 20] = some s ∧
    Tick.step s (.ret 0) = .ub := by
  refine ⟨_, rfl, ?_⟩
  rfl

/-- **Finding (C57).** A tick registered twice is accepted (`kselector_register_tick` returns true); when it is closed, freed memory stays in the list and the
next round uses it. -/
theorem registered_twice_undefined : ∃ s, run Tick.step init [.new 10 1 0, .register 10, .register 10, .close 10] = some s ∧
    Tick.step s (.begin 0) = .ub := by
  refine ⟨_, rfl, ?_⟩
  rfl

/-- One more call in the same round: the callback registers a new tick and returns. -/
theorem more {s : St} (h : Reach s) {p : Nat} (hp : s.pos = some p) (hne : p ≠ HEAD) {k : Nat} (hk : 1 < k) (hf : ∀ a, k ≤ a → s.mem.valid a = false) :
    ∃ s' p', Reach s' ∧ s'.pos = some p' ∧ p' ≠ HEAD ∧ s'.rounds = s.rounds ∧ (∀ a, k + 1 ≤ a → s'.mem.valid a = false) ∧
      (calledIn s'.mid).length = (calledIn s.mid).length + 1 := by
  have hkH : k ≠ HEAD := by unfold HEAD; omega
  -- the new tick
  have h1 : ∃ s1, Tick.step s (.new k 0 0) = .ok s1 := by
    have hub := tick_no_ub h (.new k 0 0) trivial
    simp only [Tick.step, hf k (Nat.le_refl k), Bool.false_eq_true, hkH, false_or, or_false, show ¬(k = 0) by omega, if_false] at hub ⊢
    split
    · rename_i e; rw [e] at hub; exact absurd rfl hub
    · exact ⟨_, rfl⟩
  obtain ⟨s1, e1⟩ := h1
  have r1 : Reach s1 := .step (.new k 0 0) h trivial e1
  obtain ⟨a1, a2, a3, a4, a5, a6⟩ : s1.pos = some p ∧ s1.rounds = s.rounds ∧ s1.mem.valid = (fun x => if x = k then true else s.mem.valid x) ∧
      s1.id k = s.nextId ∧ calledIn s1.mid = calledIn s.mid ∧ regOf (s1.past ++ s1.mid) = regOf (s.past ++ s.mid) := by
    simp only [Tick.step] at e1
    split at e1
    · cases e1
    · obtain ⟨m', e, _, _, hv, _⟩ := KList.klist_init_empty { s.mem with valid := fun x => if x = k then true else s.mem.valid x } k (by simp)
      rw [e] at e1
      simp only [Res.ok.injEq] at e1
      subst e1
      refine ⟨hp, rfl, hv, by simp, by rw [calledIn_snoc]; simp, ?_⟩
      rw [← List.append_assoc, regOf_snoc]
  obtain ⟨xs, hi⟩ := inv_reach h
  have hd2 : Disc s1 (.register k) := by
    refine ⟨by rw [a3]; simp, hkH, ?_⟩
    rw [a4, a6]
    intro hx
    have := hi.hist _ ((regOf_sub _).subset hx)
    omega
  have h2 : ∃ s2, Tick.step s1 (.register k) = .ok s2 := by
    have hub := tick_no_ub r1 (.register k) hd2
    simp only [Tick.step] at hub ⊢
    split
    · rename_i e; rw [e] at hub; exact absurd rfl hub
    · exact ⟨_, rfl⟩
  obtain ⟨s2, e2⟩ := h2
  have r2 : Reach s2 := .step _ r1 hd2 e2
  obtain ⟨xs1, hi1⟩ := inv_reach r1
  have hkx : k ∉ xs1 := fun hx => hd2.2.2 (by rw [← hi1.reg]; exact List.mem_map.2 ⟨k, hx, rfl⟩)
  obtain ⟨rest, hm⟩ := hi1.mid p a1
  obtain ⟨done, hsp⟩ := hm.split
  obtain ⟨m2, e, hl2, hv2, _⟩ := KList.klist_insert_appends s1.mem HEAD k xs1 hi1.list hd2.1 (by simp only [List.mem_cons, not_or]; exact ⟨hkH, hkx⟩)
  simp only [Tick.step, e, Res.ok.injEq] at e2
  -- the tick at `p` is followed by another one
  obtain ⟨rest', hr⟩ : ∃ rest', rest = p :: rest' := by
    cases rest with
    | nil => exact absurd (by simpa using hm.nxt) hne
    | cons r rest => exact ⟨rest, by have := hm.nxt; simp at this; rw [this]⟩
  subst hr
  have hl2' : IsList m2 HEAD (done ++ p :: (rest' ++ [k])) := by rw [hsp] at hl2; simpa using hl2
  have hnx := next_of hl2'
  have hq : (rest' ++ [k] ++ [HEAD]).head (by simp) ≠ HEAD := by
    have hnd := hl2'.2.1
    cases rest' with
    | nil => simpa using hkH
    | cons r rest' => simp only [List.cons_append, List.head_cons]; rintro rfl; simp at hnd
  have e3 : ∃ s3, Tick.step s2 (.ret 0) = .ok s3 ∧ s3.pos = some ((rest' ++ [k] ++ [HEAD]).head (by simp)) ∧ s3.rounds = s.rounds ∧ s3.mem = m2 ∧
      (calledIn s3.mid).length = (calledIn s.mid).length + 1 := by
    rw [← e2]
    have hpos : ({ s1 with mem := m2 }.emit (.registered (s1.id k))).pos = some p := a1
    simp only [Tick.step, hpos, enter, hne, if_false]
    simp only [St.emit, hnx]
    refine ⟨_, rfl, rfl, a2, rfl, ?_⟩
    dsimp only
    rw [calledIn_snoc, calledIn_snoc, calledIn_snoc, ← a5]
    simp
  obtain ⟨s3, e3, b1, b2, b3, b4⟩ := e3
  refine ⟨s3, _, .step (.ret 0) r2 trivial e3, b1, hq, b2, ?_, b4⟩
  intro a ha
  rw [b3, hv2, a3]
  simp only [show a ≠ k by omega, if_false]
  exact hf a (by omega)

/-- **Finding (C57).** A round need not end: callbacks that register further ticks have these called in the same round (unless the callback is the last one), so with
two ticks whose callbacks, and those of the ticks they make, each register another one, the selector serves nothing else; for every number there is an
execution that keeps the rules with as many calls in its first round. -/
theorem round_without_end (n : Nat) : ∃ s, Reach s ∧ s.rounds = [] ∧ (calledIn s.mid).length = n + 1 := by
  have : ∀ n, ∃ s p k, Reach s ∧ s.pos = some p ∧ p ≠ HEAD ∧ s.rounds = [] ∧ 1 < k ∧ (∀ a, k ≤ a → s.mem.valid a = false) ∧ (calledIn s.mid).length = n + 1 := by
    intro n
    induction n with
    | zero =>
      let os : List Op := [.new 10 1 0, .register 10, .new 20 2 0, .register 20, .begin 0]
      have h : (runDisc init os).map (fun s => (s.pos, s.rounds, (calledIn s.mid).length)) = some (some 20, [], 1) := by decide +kernel
      cases hr : runDisc init os with
      | none => rw [hr] at h; cases h
      | some s =>
        rw [hr] at h
        simp only [Option.map_some, Option.some.injEq, Prod.mk.injEq] at h
        refine ⟨s, 20, 21, reach_runDisc .init hr, h.1, by decide, h.2.1, by omega, ?_, h.2.2⟩
        have hv : (runDisc init os).map (fun s => s.mem.valid) = some (fun x => if x = 20 then true else if x = 10 then true else x == 1) := rfl
        rw [hr] at hv
        simp only [Option.map_some, Option.some.injEq] at hv
        intro a ha
        rw [hv]
        have h1 : a ≠ 20 := by omega
        have h2 : a ≠ 10 := by omega
        have h3 : a ≠ 1 := by omega
        simp [h1, h2, h3]
    | succ n ih =>
      obtain ⟨s, p, k, h1, h2, h3, h4, h5, h6, h7⟩ := ih
      obtain ⟨s', p', g1, g2, g3, g4, g5, g6⟩ := more h1 h2 h3 h5 h6
      exact ⟨s', p', k + 1, g1, g2, g3, by rw [g4, h4], by omega, g5, by omega⟩
  obtain ⟨s, _, _, h1, _, _, h4, _, _, h7⟩ := this n
  exact ⟨s, h1, h4, h7⟩

end Kasync.Tick
