import Verif.Iocp.Inv

/-! # Completion port: every operation keeps the invariant -/

namespace Kasync.Iocp

theorem not_mem_of_lt {l : List (Nat × Int)} {n : Nat} (h : ∀ i ∈ l.map Prod.fst, i < n) : n ∉ l.map Prod.fst :=
  fun hn => Nat.lt_irrefl _ (h n hn)

theorem nodup_snoc {l : List (Nat × Int)} {i : Nat} {v : Int} (h : (l.map Prod.fst).Nodup) (hi : i ∉ l.map Prod.fst) :
    ((l ++ [(i, v)]).map Prod.fst).Nodup := by
  rw [List.map_append, List.nodup_append]
  refine ⟨h, by simp, ?_⟩
  intro a ha b hb
  simp at hb
  subst hb
  exact fun e => hi (e ▸ ha)

theorem mem_fst_snoc {l : List (Nat × Int)} {i j : Nat} {v : Int} :
    j ∈ (l ++ [(i, v)]).map Prod.fst ↔ j ∈ l.map Prod.fst ∨ j = i := by simp

theorem newR_inv {s : St} (h : Inv s) (hr : s.read = false) (ha : s.alive = true) (hb : s.bound = true)
    {pr : Option Nat} {r2 : Bool} {l : Loc} {ak : Option Nat} {ns : Nat} {cl : List Nat}
    (hf : s.kind = .file → s.write = false)
    (hp : (r2 = true ∧ pr = none ∧ l = .ready) ∨ (r2 = false ∧ pr = some s.next))
    (hl : s.kind = .conn → l ≠ .none) (hl' : s.kind ≠ .conn → l = .none ∧ r2 = false)
    (hw2 : s.wready2 = true → l = .ready) (hak : (∃ k, ak = some k) ↔ s.kind = .server)
    (hsk : (cl ++ s.given ++ ak.toList).Nodup ∧ ∀ k, k ∈ cl ++ s.given ++ ak.toList ↔ k < ns) :
    Inv { s.request .r with rid := s.next, read := true, pendR := pr, rready2 := r2, loc := l, asock := ak, nsock := ns, closed := cl } := by
  have hn1 := not_mem_of_lt h.done_lt
  have hn2 := not_mem_of_lt h.out_lt
  obtain ⟨⟨a1, a2⟩, ⟨b1, b2⟩, h3, h4, h5, h6, h7, h8, h9, h10, h11, h12, h13, h14, h15, h16, h17, h18, h19, h20, h21, h22, h23, h24, h25, h26, h27, h28⟩ := h
  obtain ⟨a3, a4, a5⟩ := a1 hr
  unfold St.request
  unfold Outstanding at *
  constructor <;> (try unfold Outstanding) <;> dsimp only
  case sideR =>
    constructor
    · simp
    · intro _
      rcases hp with ⟨p1, p2, p3⟩ | ⟨p1, p2⟩
      · exact Or.inl ⟨p1, p2, a5, hn2⟩
      · exact Or.inr (Or.inl ⟨p1, p2, a5, hn2⟩)
  case sideW => exact ⟨b1, b2⟩
  case out_r => intro _; exact ⟨⟨by omega, hn1⟩, by simp⟩
  case socks => exact hsk
  all_goals first | assumption | grind

theorem newW_inv {s : St} (h : Inv s) (hr : s.write = false) (ha : s.alive = true) (hb : s.bound = true)
    {pr : Option Nat} {r2 : Bool} {l : Loc}
    (hf : s.kind = .file → s.read = false) (hs : s.kind ≠ .server)
    (hp : (r2 = true ∧ pr = none ∧ l = .ready) ∨ (r2 = false ∧ pr = some s.next))
    (hl : s.kind = .conn → l ≠ .none) (hl' : s.kind ≠ .conn → l = .none ∧ r2 = false)
    (hw2 : s.rready2 = true → l = .ready ∨ ∃ k, s.cur = some k ∧ k.todoR = true) :
    Inv { s.request .w with wid := s.next, write := true, pendW := pr, wready2 := r2, loc := l } := by
  have hn1 := not_mem_of_lt h.done_lt
  have hn2 := not_mem_of_lt h.out_lt
  obtain ⟨⟨a1, a2⟩, ⟨b1, b2⟩, h3, h4, h5, h6, h7, h8, h9, h10, h11, h12, h13, h14, h15, h16, h17, h18, h19, h20, h21, h22, h23, h24, h25, h26, h27, h28⟩ := h
  obtain ⟨a3, a4, a5⟩ := b1 hr
  unfold St.request
  unfold Outstanding at *
  constructor <;> (try unfold Outstanding) <;> dsimp only
  case sideW =>
    constructor
    · simp
    · intro _
      rcases hp with ⟨p1, p2, p3⟩ | ⟨p1, p2⟩
      · exact Or.inl ⟨p1, p2, a5, hn2⟩
      · exact Or.inr (Or.inl ⟨p1, p2, a5, hn2⟩)
  case sideR => exact ⟨a1, a2⟩
  case out_w => intro _; exact ⟨⟨by omega, hn1⟩, by simp⟩
  all_goals first | assumption | grind

theorem refR_inv {s : St} (h : Inv s) (hr : s.read = false) (hb : s.bound = true) (ha : s.alive = true) :
    Inv { s.request .r with rid := s.next, read := false, outcome := s.outcome ++ [(s.next, -1)], done := s.done ++ [(s.next, -1)] } := by
  have hn1 := not_mem_of_lt h.done_lt
  have hn2 := not_mem_of_lt h.out_lt
  have hd := nodup_snoc (v := -1) h.done_nodup hn1
  have hd2 := nodup_snoc (v := -1) h.out_nodup hn2
  obtain ⟨⟨a1, a2⟩, ⟨b1, b2⟩, h3, h4, h5, h6, h7, h8, h9, h10, h11, h12, h13, h14, h15, h16, h17, h18, h19, h20, h21, h22, h23, h24, h25, h26, h27, h28⟩ := h
  unfold St.request
  unfold Outstanding at *
  constructor <;> (try unfold Outstanding) <;> dsimp only
  case sideR => constructor <;> grind
  case sideW =>
    constructor
    · exact b1
    · intro hw
      have := h4 hw
      simp only [mem_fst_snoc]
      grind
  case done_nodup => exact hd
  case out_nodup => exact hd2
  all_goals (try simp only [mem_fst_snoc])
  all_goals first | assumption | grind

theorem refW_inv {s : St} (h : Inv s) (hr : s.write = false) (hb : s.bound = true) (ha : s.alive = true) :
    Inv { s.request .w with wid := s.next, write := false, outcome := s.outcome ++ [(s.next, -1)], done := s.done ++ [(s.next, -1)] } := by
  have hn1 := not_mem_of_lt h.done_lt
  have hn2 := not_mem_of_lt h.out_lt
  have hd := nodup_snoc (v := -1) h.done_nodup hn1
  have hd2 := nodup_snoc (v := -1) h.out_nodup hn2
  obtain ⟨⟨a1, a2⟩, ⟨b1, b2⟩, h3, h4, h5, h6, h7, h8, h9, h10, h11, h12, h13, h14, h15, h16, h17, h18, h19, h20, h21, h22, h23, h24, h25, h26, h27, h28⟩ := h
  unfold St.request
  unfold Outstanding at *
  constructor <;> (try unfold Outstanding) <;> dsimp only
  case sideW => constructor <;> grind
  case sideR =>
    constructor
    · exact a1
    · intro hw
      have := h3 hw
      simp only [mem_fst_snoc]
      grind
  case done_nodup => exact hd
  case out_nodup => exact hd2
  all_goals (try simp only [mem_fst_snoc])
  all_goals first | assumption | grind

theorem finR_inv {s : St} (h : Inv s) {id n : Nat} {ok : Bool} {p : List Pkt} (hp : s.port = .io .r id ok n :: p) (hcur : s.cur = none)
    {l : Loc} {ak : Option Nat} {g c : List Nat} (hl : s.write = true → l ≠ .none ∨ s.kind ≠ .conn) (hl' : l ≠ .none → s.write = true)
    (hl2 : s.kind ≠ .conn → l = .none) (hw2 : s.wready2 = true → l = .ready) (hak : ak = none)
    (hsk : (c ++ g ++ ak.toList).Nodup ∧ ∀ k, k ∈ c ++ g ++ ak.toList ↔ k < s.nsock) :
    Inv { s with port := p, read := false, loc := l, done := s.done ++ [(s.rid, if ok then (n : Int) else -1)], asock := ak, given := g, closed := c } := by
  obtain ⟨⟨a1, a2⟩, ⟨b1, b2⟩, h3, h4, h5, h6, h7, h8, h9, h10, h11, h12, h13, h14, h15, h16, h17, h18, h19, h20, h21, h22, h23, h24, h25, h26, h27, h28⟩ := h
  have hq : pk .r s.port = (id, if ok then (n : Int) else -1) :: pk .r p := by rw [hp]; simp [pk]
  have hqw : pk .w s.port = pk .w p := by rw [hp]; simp [pk]
  have hqn : nts s.port = nts p := by rw [hp]; simp [nts]
  rw [hq] at a1 a2
  rw [hqw] at b1 b2
  rw [hqn] at h26
  have hr : s.read = true := by
    cases e : s.read
    · have := (a1 e).2.2; cases this
    · rfl
  obtain ⟨hr2, hpr, v, hv, hv2⟩ : s.rready2 = false ∧ s.pendR = none ∧ ∃ v, (id, if ok then (n : Int) else -1) :: pk .r p = [(s.rid, v)] ∧ (s.rid, v) ∈ s.outcome := by
    rcases a2 hr with ⟨_, _, e, _⟩ | ⟨_, _, e, _⟩ | x
    · cases e
    · cases e
    · exact x
  simp only [List.cons.injEq, Prod.mk.injEq] at hv
  obtain ⟨⟨rfl, rfl⟩, hp0⟩ := hv
  have ho := h3 hr
  unfold Outstanding at *
  have hd := nodup_snoc (v := if ok then (n : Int) else -1) h7 ho.1.2
  have hne : s.write = true → s.wid ≠ s.rid := by
    intro hw e
    have := (h4 hw).2
    rw [e, ho.2] at this
    cases this
  constructor <;> (try unfold Outstanding) <;> dsimp only
  case sideR => constructor <;> grind
  case sideW => exact ⟨b1, b2⟩
  case done_nodup => exact hd
  case socks => exact hsk
  all_goals (try simp only [mem_fst_snoc])
  all_goals first | assumption | grind

theorem finW_inv {s : St} (h : Inv s) {id n : Nat} {ok : Bool} {p : List Pkt} (hp : s.port = .io .w id ok n :: p) (hcur : s.cur = none)
    {l : Loc} (hl : s.read = true → l ≠ .none ∨ s.kind ≠ .conn) (hl' : l ≠ .none → s.read = true)
    (hl2 : s.kind ≠ .conn → l = .none) (hw2 : s.rready2 = true → l = .ready) :
    Inv { s with port := p, write := false, loc := l, done := s.done ++ [(s.wid, if ok then (n : Int) else -1)] } := by
  obtain ⟨⟨a1, a2⟩, ⟨b1, b2⟩, h3, h4, h5, h6, h7, h8, h9, h10, h11, h12, h13, h14, h15, h16, h17, h18, h19, h20, h21, h22, h23, h24, h25, h26, h27, h28⟩ := h
  have hq : pk .w s.port = (id, if ok then (n : Int) else -1) :: pk .w p := by rw [hp]; simp [pk]
  have hqw : pk .r s.port = pk .r p := by rw [hp]; simp [pk]
  have hqn : nts s.port = nts p := by rw [hp]; simp [nts]
  rw [hq] at b1 b2
  rw [hqw] at a1 a2
  rw [hqn] at h26
  have hr : s.write = true := by
    cases e : s.write
    · have := (b1 e).2.2; cases this
    · rfl
  obtain ⟨hr2, hpr, v, hv, hv2⟩ : s.wready2 = false ∧ s.pendW = none ∧ ∃ v, (id, if ok then (n : Int) else -1) :: pk .w p = [(s.wid, v)] ∧ (s.wid, v) ∈ s.outcome := by
    rcases b2 hr with ⟨_, _, e, _⟩ | ⟨_, _, e, _⟩ | x
    · cases e
    · cases e
    · exact x
  simp only [List.cons.injEq, Prod.mk.injEq] at hv
  obtain ⟨⟨rfl, rfl⟩, hp0⟩ := hv
  have ho := h4 hr
  unfold Outstanding at *
  have hd := nodup_snoc (v := if ok then (n : Int) else -1) h7 ho.1.2
  have hne : s.read = true → s.rid ≠ s.wid := by
    intro hw e
    have := (h3 hw).2
    rw [e, ho.2] at this
    cases this
  constructor <;> (try unfold Outstanding) <;> dsimp only
  case sideW => constructor <;> grind
  case sideR => exact ⟨a1, a2⟩
  case done_nodup => exact hd
  all_goals (try simp only [mem_fst_snoc])
  all_goals first | assumption | grind

/-- A packet belongs to a request under way. -/
theorem pkt_flag {s : St} (h : Inv s) {d : Dir} {id n : Nat} {ok : Bool} {p : List Pkt} (hp : s.port = .io d id ok n :: p) :
    match d with
    | .r => s.read = true ∧ s.rready2 = false ∧ s.pendR = none ∧ pk .r p = []
    | .w => s.write = true ∧ s.wready2 = false ∧ s.pendW = none ∧ pk .w p = [] := by
  obtain ⟨⟨a1, a2⟩, ⟨b1, b2⟩, -⟩ := h
  cases d
  · have hq : pk .r s.port = (id, if ok then (n : Int) else -1) :: pk .r p := by rw [hp]; simp [pk]
    rw [hq] at a1 a2
    grind
  · have hq : pk .w s.port = (id, if ok then (n : Int) else -1) :: pk .w p := by rw [hp]; simp [pk]
    rw [hq] at b1 b2
    grind

theorem complete_loc {s : St} (h : Inv s) {d : Dir} {id n : Nat} {ok : Bool} {p : List Pkt} (hp : s.port = .io d id ok n :: p)
    (hcur : s.cur = none) : ∃ l : Loc,
    (if s.read && s.write then (if s.rready2 || s.wready2 then { s with port := p } else addList { s with port := p } .rw) else
      addList { s with port := p } .none) = { s with port := p, loc := l } ∧
    (s.kind ≠ .conn → l = .none) ∧ (s.read = true → s.write = true → l ≠ .none) ∧ (l ≠ .none → s.read = true ∧ s.write = true) ∧
    (s.read = true → s.write = true → s.rready2 = true ∨ s.wready2 = true → l = .ready) := by
  have hf := pkt_flag h hp
  have h15 := h.conn
  have h16 := h.serv
  have h17 := h.filed
  have h19 := h.r2
  have h20 := h.w2
  have hk : s.read = true → s.write = true → s.kind = .conn := by
    intro e1 e2
    cases hk : s.kind
    · rfl
    · rw [h16 hk] at e2; cases e2
    · rw [h17 hk e1] at e2; cases e2
  by_cases hb : s.read = true ∧ s.write = true
  · obtain ⟨e1, e2⟩ := hb
    have hk := hk e1 e2
    rw [if_pos (by simp [e1, e2])]
    by_cases e3 : s.rready2 = true ∨ s.wready2 = true
    · rw [if_pos (by simpa using e3)]
      have hl : s.loc = .ready := by
        rcases e3 with e3 | e3
        · rcases h19 e3 with hl | ⟨k, hk, -⟩
          · exact hl
          · rw [hcur] at hk; cases hk
        · exact h20 e3
      exact ⟨s.loc, rfl, by simp [hk], by simp [hl], by simp [e1, e2], by simp [hl]⟩
    · rw [if_neg (by simpa using e3)]
      exact ⟨.rw, rfl, by simp [hk], by simp, by simp [e1, e2], fun _ _ e => absurd e e3⟩
  · rw [if_neg (by simpa using hb)]
    exact ⟨.none, rfl, by simp, fun e1 e2 => absurd ⟨e1, e2⟩ hb, by simp, fun e1 e2 => absurd ⟨e1, e2⟩ hb⟩

theorem complete_inv {s s' : St} (h : Inv s) {d : Dir} {id n : Nat} {ok : Bool} {p : List Pkt} (hp : s.port = .io d id ok n :: p)
    (hcur : s.cur = none) (he : complete { s with port := p } d ok n = .ok s') : Inv s' := by
  have hf := pkt_flag h hp
  have hsock := h.sock
  have hsk := h.socks
  have hoffw := h.sideW.off
  have hoffr := h.sideR.off
  obtain ⟨l, hl, l1, l2, l3, l4⟩ := complete_loc h hp hcur
  unfold complete at he
  dsimp only at he
  rw [hl] at he
  split at he
  · cases he
  cases d
  · obtain ⟨f1, f2, f3, f4⟩ := hf
    dsimp only at he
    rw [if_neg (by simp [f1, f2])] at he
    cases he
    have e1 : s.write = true → l ≠ .none ∨ s.kind ≠ .conn := fun hw => Or.inl (l2 f1 hw)
    have e2 : l ≠ .none → s.write = true := fun e => (l3 e).2
    have e4 : s.wready2 = true → l = .ready := by
      intro e
      cases hw : s.write
      · rw [(hoffw hw).1] at e; cases e
      · exact l4 f1 hw (Or.inr e)
    split
    · next hk =>
      obtain ⟨k, hk2⟩ := hsock.2 ⟨hk, f1⟩
      simp only [getSocket, St.finishR, hk2]
      rw [hk2] at hsk
      cases ok
      · refine finR_inv (ok := false) h hp hcur e1 e2 l1 e4 rfl ?_
        obtain ⟨q1, q2⟩ := hsk
        simp only [Option.toList, List.append_assoc, List.nodup_append, List.mem_append] at *
        refine ⟨?_, ?_⟩ <;> grind
      · refine finR_inv (ok := true) h hp hcur e1 e2 l1 e4 rfl ?_
        simpa using hsk
    · next hk =>
      have hn : s.asock = none := by
        cases ea : s.asock
        · rfl
        · exact absurd (hsock.1 ⟨_, ea⟩).1 hk
      have := finR_inv h hp hcur (ak := none) (g := s.given) (c := s.closed) e1 e2 l1 e4 rfl (by rw [hn] at hsk; exact hsk)
      simp only [St.finishR]
      rw [← hn] at this
      exact this
  · obtain ⟨f1, f2, f3, f4⟩ := hf
    dsimp only at he
    rw [if_neg (by simp [f1, f2])] at he
    cases he
    refine finW_inv h hp hcur (fun hw => Or.inl (l2 hw f1)) (fun e => (l3 e).1) l1 ?_
    intro e
    cases hw : s.read
    · rw [(hoffr hw).1] at e; cases e
    · exact l4 hw f1 (Or.inl e)

theorem acceptTries_inv {ts : List Try} : ∀ {s : St}, Inv s → s.kind = .server → s.read = false → s.alive = true → s.bound = true →
    Inv (acceptTries s ts).1 := by
  induction ts with
  | nil => intro s h _ _ _ _; exact h
  | cons t ts ih =>
    intro s h hk hr ha hb
    have hn : s.asock = none := by
      cases ea : s.asock
      · rfl
      · have := (h.sock.1 ⟨_, ea⟩).2; rw [hr] at this; cases this
    obtain ⟨q1, q2⟩ := h.socks
    rw [hn] at q1 q2
    simp only [Option.toList, List.append_nil] at q1 q2
    cases t
    · exact ih h hk hr ha hb
    · refine ih ?_ hk hr ha hb
      obtain ⟨c1, c2, h3, h4, h5, h6, h7, h8, h9, h10, h11, h12, h13, h14, h15, h16, h17, h18, h19, h20, h21, h22, h23, h24, h25, h26, h27, h28⟩ := h
      constructor <;> first | assumption | skip
      rw [hn]
      simp only [Option.toList, List.append_nil, List.append_assoc, List.nodup_append, List.mem_append] at *
      refine ⟨?_, ?_⟩ <;> grind
    · have hl := (h.conn (by simp [hk])).1
      have hr2 := (h.conn (by simp [hk])).2.2.1
      have := newR_inv h hr ha hb (pr := some s.next) (r2 := s.rready2) (l := s.loc) (ak := some s.nsock) (ns := s.nsock + 1) (cl := s.closed)
        (by simp [hk]) (Or.inr ⟨hr2, rfl⟩) (by simp [hk]) (fun _ => ⟨hl, hr2⟩) (by have := h.w2; exact this) (by simp [hk]) (by
          simp only [Option.toList, List.append_assoc, List.nodup_append, List.mem_append] at *
          refine ⟨?_, ?_⟩ <;> grind)
      exact this

theorem step_inv {s s' : St} {op : Op} (h : Inv s) (hc : Client s op) (he : step s op = .ok s') : Inv s' := by
  have hR := h.busyR
  have hW := h.busyW
  have hoffr := h.sideR.off
  have hoffw := h.sideW.off
  have hsk := h.socks
  have hsock := h.sock
  have hconn := h.conn
  have h14 := h.listed
  have h19 := h.r2
  have h20 := h.w2
  have hnone : s.read = false → s.asock = none := by
    intro hr
    cases ea : s.asock
    · rfl
    · have := (hsock.1 ⟨_, ea⟩).2; rw [hr] at this; cases this
  cases op <;> unfold step at he <;> dsimp only at he
  case bind =>
    split at he <;> cases he
    obtain ⟨c1, c2, h3, h4, h5, h6, h7, h8, h9, h10, h11, h12, h13, h14, h15, h16, h17, h18, h19, h20, h21, h22, h23, h24, h25, h26, h27, h28⟩ := h
    constructor <;> first | assumption | (intro h; simp at h)
  case read ok =>
    obtain ⟨ha, hb, hk, hnr⟩ := hc
    have hr : s.read = false := by simpa [hR] using hnr
    rw [if_neg (by simp [ha, hr, hb])] at he
    obtain ⟨r1, r2, -⟩ := hoffr hr
    cases ok
    · cases he
      exact refR_inv h hr hb ha
    · simp only [if_true, ensureRw] at he
      split at he
      · next hl =>
        cases he
        exact newR_inv h hr ha hb (pr := some s.next) (l := .rw) (by simp [hk]) (Or.inr ⟨r1, rfl⟩) (by simp) (by simp [hk]) (fun e => by have := h20 e; rw [show s.loc = .none from hl] at this; cases this)
          (show (∃ k, s.asock = some k) ↔ s.kind = .server by rw [hnone hr]; simp [hk]) hsk
      · next hl =>
        cases he
        exact newR_inv h hr ha hb (pr := some s.next) (l := s.loc) (by simp [hk]) (Or.inr ⟨r1, rfl⟩) (fun _ => hl) (by simp [hk]) h20
          (show (∃ k, s.asock = some k) ↔ s.kind = .server by rw [hnone hr]; simp [hk]) hsk
  case recvFrom => cases hc
  case write ok =>
    obtain ⟨ha, hb, hk, hnr⟩ := hc
    have hr : s.write = false := by simpa [hW] using hnr
    obtain ⟨r1, r2, -⟩ := hoffw hr
    rw [if_neg (by simp [ha, hr, hb, r1])] at he
    cases ok
    · cases he
      exact refW_inv h hr hb ha
    · simp only [if_true, ensureRw] at he
      split at he
      · next hl =>
        cases he
        exact newW_inv h hr ha hb (pr := some s.next) (l := .rw) (by simp [hk]) (by simp [hk]) (Or.inr ⟨r1, rfl⟩) (by simp) (by simp [hk]) (fun e => by
          rcases h19 e with e' | e'
          · rw [show s.loc = .none from hl] at e'; cases e'
          · exact Or.inr e')
      · next hl =>
        cases he
        exact newW_inv h hr ha hb (pr := some s.next) (l := s.loc) (by simp [hk]) (by simp [hk]) (Or.inr ⟨r1, rfl⟩) (fun _ => hl) (by simp [hk]) h19
  case sendfile ok =>
    obtain ⟨ha, hb, hk, hnr⟩ := hc
    have hr : s.write = false := by simpa [hW] using hnr
    obtain ⟨r1, r2, -⟩ := hoffw hr
    rw [if_neg (by simp [ha, hr])] at he
    cases ok
    · cases he
      exact refW_inv h hr hb ha
    · simp only [if_true, ensureRw] at he
      split at he
      · next hl =>
        cases he
        exact newW_inv h hr ha hb (pr := some s.next) (l := .rw) (by simp [hk]) (by simp [hk]) (Or.inr ⟨r1, rfl⟩) (by simp) (by simp [hk]) (fun e => by
          rcases h19 e with e' | e'
          · rw [show s.loc = .none from hl] at e'; cases e'
          · exact Or.inr e')
      · next hl =>
        cases he
        exact newW_inv h hr ha hb (pr := some s.next) (l := s.loc) (by simp [hk]) (by simp [hk]) (Or.inr ⟨r1, rfl⟩) (fun _ => hl) (by simp [hk]) h19
  case connect ok =>
    obtain ⟨ha, hb, hk, hnr, hnw⟩ := hc
    have hr : s.read = false := by simpa [hR] using hnr
    have hw : s.write = false := by simpa [hW] using hnw
    obtain ⟨r1, r2, -⟩ := hoffw hw
    rw [if_neg (by simp [ha, hw])] at he
    cases ok
    · cases he; exact h
    · simp only [if_true] at he
      split at he
      · cases he
      · cases he
        exact newW_inv h hw ha hb (pr := some s.next) (l := .connect) (by simp [hk]) (by simp [hk]) (Or.inr ⟨r1, rfl⟩) (by simp) (by simp [hk])
          (fun e => by rw [(hoffr hr).1] at e; cases e)
  case aioRead ok =>
    obtain ⟨ha, hb, hk, hnr, hnw⟩ := hc
    have hr : s.read = false := by simpa [hR] using hnr
    have hw : s.write = false := by simpa [hW] using hnw
    obtain ⟨r1, r2, -⟩ := hoffr hr
    obtain ⟨k1, k2, k3, k4⟩ := hconn (by simp [hk])
    rw [if_neg (by simp [ha, hw, hr])] at he
    cases ok
    · cases he; exact h
    · cases he
      exact newR_inv h hr ha hb (pr := some s.next) (l := s.loc) (by simp [hw]) (Or.inr ⟨r1, rfl⟩) (by simp [hk]) (fun _ => ⟨k1, k3⟩) h20
          (show (∃ k, s.asock = some k) ↔ s.kind = .server by rw [hnone hr]; simp [hk]) hsk
  case aioWrite ok =>
    obtain ⟨ha, hb, hk, hnr, hnw⟩ := hc
    have hr : s.read = false := by simpa [hR] using hnr
    have hw : s.write = false := by simpa [hW] using hnw
    obtain ⟨r1, r2, -⟩ := hoffw hw
    obtain ⟨k1, k2, k3, k4⟩ := hconn (by simp [hk])
    rw [if_neg (by simp [ha, hw, hr])] at he
    cases ok
    · cases he; exact h
    · cases he
      exact newW_inv h hw ha hb (pr := some s.next) (l := s.loc) (by simp [hr]) (by simp [hk]) (Or.inr ⟨r1, rfl⟩) (by simp [hk]) (fun _ => ⟨k1, k4⟩) h19
  case accept tries =>
    obtain ⟨ha, hb, hk, hnr⟩ := hc
    have hr : s.read = false := by simpa [hR] using hnr
    rw [if_neg (by simp [ha, hb, hnone hr])] at he
    have hstop : ∀ {t : St}, Inv t → Inv { t with running := false } := by
      intro t ht
      cases ht
      constructor <;> assumption
    split at he
    · cases he; exact hstop h
    · have := acceptTries_inv (ts := tries) h hk hr ha hb
      cases he
      split
      · exact this
      · exact hstop this
  case nextRead =>
    obtain ⟨ha, hb, hk, hnr⟩ := hc
    have hr : s.read = false := by simpa [hR] using hnr
    obtain ⟨r1, r2, -⟩ := hoffr hr
    rw [if_neg (by simp [ha, hr, r1])] at he
    cases he
    exact newR_inv h hr ha hb (r2 := true) (l := .ready) (by simp [hk]) (Or.inl ⟨rfl, r2, rfl⟩) (by simp) (by simp [hk]) (by simp)
          (show (∃ k, s.asock = some k) ↔ s.kind = .server by rw [hnone hr]; simp [hk]) hsk
  case nextWrite =>
    obtain ⟨ha, hb, hk, hnr⟩ := hc
    have hr : s.write = false := by simpa [hW] using hnr
    obtain ⟨r1, r2, -⟩ := hoffw hr
    rw [if_neg (by simp [ha, hr, r1])] at he
    cases he
    exact newW_inv h hr ha hb (r2 := true) (l := .ready) (by simp [hk]) (by simp [hk]) (Or.inl ⟨rfl, r2, rfl⟩) (by simp) (by simp [hk]) (by simp)
  case destroy =>
    obtain ⟨ha, hnr, hnw⟩ := hc
    have hr : s.read = false := by simpa [hR] using hnr
    have hw : s.write = false := by simpa [hW] using hnw
    split at he
    · cases he
    · next hx =>
      have hl : s.loc = .none := by simpa [ha] using hx
      rw [hnone hr] at he
      cases he
      obtain ⟨c1, c2, h3, h4, h5, h6, h7, h8, h9, h10, h11, h12, h13, h14, h15, h16, h17, h18, h19, h20, h21, h22, h23, h24, h25, h26, h27, h28⟩ := h
      have hn := hnone hr
      constructor <;> first | assumption | grind
  case expire =>
    split at he
    · next hx =>
      split at he <;> cases he
      obtain ⟨⟨a1, a2⟩, ⟨b1, b2⟩, h3, h4, h5, h6, h7, h8, h9, h10, h11, h12, h13, h14, h15, h16, h17, h18, h19, h20, h21, h22, h23, h24, h25, h26, h27, h28⟩ := h
      constructor <;> first | assumption | (constructor <;> assumption) | grind
    · cases he
  case stop =>
    cases he
    cases h
    constructor <;> assumption
  case kernel d ok n =>
    cases d <;> dsimp only at he <;> split at he
    · next id hp =>
      have hr : s.read = true := by
        cases e : s.read
        · rw [(hoffr e).2.1] at hp; cases hp
        · rfl
      rw [if_neg (by simp [h.dng])] at he
      have hb : s.bound = true := by
        cases e : s.bound
        · have := h.bnd e; have := (h.out_r hr).1.1; omega
        · rfl
      simp only [hb, if_true, St.decide] at he
      cases he
      have hd : ∀ v : Int, s.rid ∉ s.outcome.map Prod.fst → ((s.outcome ++ [(s.rid, v)]).map Prod.fst).Nodup := fun v => nodup_snoc h.out_nodup
      obtain ⟨⟨a1, a2⟩, ⟨b1, b2⟩, h3, h4, h5, h6, h7, h8, h9, h10, h11, h12, h13, h14, h15, h16, h17, h18, h19, h20, h21, h22, h23, h24, h25, h26, h27, h28⟩ := h
      have ho := h3 hr
      obtain ⟨x1, x2, x3, x4⟩ : s.rready2 = false ∧ id = s.rid ∧ pk .r s.port = [] ∧ s.rid ∉ s.outcome.map Prod.fst := by
        rcases a2 hr with ⟨_, e, _⟩ | ⟨y1, y2, y3, y4⟩ | ⟨_, e, _⟩
        · rw [hp] at e; cases e
        · rw [hp] at y2; cases y2; exact ⟨y1, rfl, y3, y4⟩
        · rw [hp] at e; cases e
      subst x2
      have hne : s.write = true → s.wid ≠ s.rid := by
        intro hw e
        have := (h4 hw).2
        rw [e, ho.2] at this
        cases this
      constructor <;> (try unfold Outstanding) <;> dsimp only
      case sideR =>
        constructor
        · intro e; rw [hr] at e; cases e
        · intro _
          exact Or.inr (Or.inr ⟨x1, rfl, if ok then (n : Int) else -1, by rw [pk_append, x3]; simp [pk], by simp⟩)
      case sideW =>
        simp only [pk_append, pk, if_neg (show Dir.r ≠ Dir.w by decide), List.append_nil]
        constructor
        · exact b1
        · intro hw
          have := hne hw
          simp only [mem_fst_snoc, List.mem_append]
          grind
      case out_nodup => exact hd _ x4
      case notices => simp only [nts_append, nts, List.append_nil]; exact h26
      all_goals (try simp only [mem_fst_snoc])
      all_goals first | assumption | (unfold Outstanding at *; grind)
    · cases he
    · next id hp =>
      have hr : s.write = true := by
        cases e : s.write
        · rw [(hoffw e).2.1] at hp; cases hp
        · rfl
      have hb : s.bound = true := by
        cases e : s.bound
        · have := h.bnd e; have := (h.out_w hr).1.1; omega
        · rfl
      simp only [hb, if_true, St.decide] at he
      cases he
      have hd : ∀ v : Int, s.wid ∉ s.outcome.map Prod.fst → ((s.outcome ++ [(s.wid, v)]).map Prod.fst).Nodup := fun v => nodup_snoc h.out_nodup
      obtain ⟨⟨a1, a2⟩, ⟨b1, b2⟩, h3, h4, h5, h6, h7, h8, h9, h10, h11, h12, h13, h14, h15, h16, h17, h18, h19, h20, h21, h22, h23, h24, h25, h26, h27, h28⟩ := h
      have ho := h4 hr
      obtain ⟨x1, x2, x3, x4⟩ : s.wready2 = false ∧ id = s.wid ∧ pk .w s.port = [] ∧ s.wid ∉ s.outcome.map Prod.fst := by
        rcases b2 hr with ⟨_, e, _⟩ | ⟨y1, y2, y3, y4⟩ | ⟨_, e, _⟩
        · rw [hp] at e; cases e
        · rw [hp] at y2; cases y2; exact ⟨y1, rfl, y3, y4⟩
        · rw [hp] at e; cases e
      subst x2
      have hne : s.read = true → s.rid ≠ s.wid := by
        intro hw e
        have := (h3 hw).2
        rw [e, ho.2] at this
        cases this
      constructor <;> (try unfold Outstanding) <;> dsimp only
      case sideW =>
        constructor
        · intro e; rw [hr] at e; cases e
        · intro _
          exact Or.inr (Or.inr ⟨x1, rfl, if ok then (n : Int) else -1, by rw [pk_append, x3]; simp [pk], by simp⟩)
      case sideR =>
        simp only [pk_append, pk, if_neg (show Dir.w ≠ Dir.r by decide), List.append_nil]
        constructor
        · exact a1
        · intro hw
          have := hne hw
          simp only [mem_fst_snoc, List.mem_append]
          grind
      case out_nodup => exact hd _ x4
      case notices => simp only [nts_append, nts, List.append_nil]; exact h26
      all_goals (try simp only [mem_fst_snoc])
      all_goals first | assumption | (unfold Outstanding at *; grind)
    · cases he
  case post id got ok =>
    cases ok
    · cases he; exact h
    · simp only [if_true] at he
      cases he
      obtain ⟨⟨a1, a2⟩, ⟨b1, b2⟩, h3, h4, h5, h6, h7, h8, h9, h10, h11, h12, h13, h14, h15, h16, h17, h18, h19, h20, h21, h22, h23, h24, h25, h26, h27, h28⟩ := h
      constructor <;> dsimp only
      case sideR => simp only [pk_append, pk, List.append_nil]; exact ⟨a1, a2⟩
      case sideW => simp only [pk_append, pk, List.append_nil]; exact ⟨b1, b2⟩
      case notices => simp only [nts_append, nts, ← List.append_assoc]; rw [h26]
      all_goals assumption
  case select =>
    split at he
    · next hcur =>
      split at he
      · cases he
      · next d id ok n p hp => exact complete_inv h hp hcur he
      · next id got p hp =>
        cases he
        obtain ⟨⟨a1, a2⟩, ⟨b1, b2⟩, h3, h4, h5, h6, h7, h8, h9, h10, h11, h12, h13, h14, h15, h16, h17, h18, h19, h20, h21, h22, h23, h24, h25, h26, h27, h28⟩ := h
        rw [hp] at a1 a2 b1 b2 h26
        simp only [pk, nts] at a1 a2 b1 b2 h26
        constructor <;> dsimp only
        case sideR => exact ⟨a1, a2⟩
        case sideW => exact ⟨b1, b2⟩
        case notices => rw [h26]; simp
        all_goals assumption
    · cases he
  case popWrite =>
    split at he
    · next hx =>
      obtain ⟨hcur, hl⟩ := hx
      have hk : s.kind = .conn := by
        by_cases hk : s.kind = .conn
        · exact hk
        · rw [(hconn hk).1] at hl; cases hl
      split at he
      · cases he
      split at he
      · next hw =>
        simp only [Bool.and_eq_true] at hw
        obtain ⟨hw2, hw⟩ := hw
        simp only [St.decide, St.finishW, addList] at he
        cases he
        obtain ⟨⟨a1, a2⟩, ⟨b1, b2⟩, h3, h4, h5, h6, h7, h8, h9, h10, h11, h12, h13, h14, h15, h16, h17, h18, h19, h20, h21, h22, h23, h24, h25, h26, h27, h28⟩ := h
        have ho := h4 hw
        obtain ⟨x1, x3, x4⟩ : s.pendW = none ∧ pk .w s.port = [] ∧ s.wid ∉ s.outcome.map Prod.fst := by
          rcases b2 hw with ⟨_, y1, y2, y3⟩ | ⟨e, _⟩ | ⟨e, _⟩
          · exact ⟨y1, y2, y3⟩
          · rw [hw2] at e; cases e
          · rw [hw2] at e; cases e
        have hne : s.read = true → s.rid ≠ s.wid := by
          intro hr e
          have := (h3 hr).2
          rw [e, ho.2] at this
          cases this
        have hd := nodup_snoc (v := 0) h9 x4
        have hd2 := nodup_snoc (v := 0) h7 ho.1.2
        constructor <;> (try unfold Outstanding) <;> dsimp only
        case sideW => exact ⟨fun _ => ⟨rfl, x1, x3⟩, fun e => by cases e⟩
        case sideR =>
          constructor
          · exact a1
          · intro hr
            have := hne hr
            simp only [mem_fst_snoc, List.mem_append]
            grind
        case out_nodup => exact hd
        case done_nodup => exact hd2
        all_goals (try simp only [mem_fst_snoc])
        all_goals first | assumption | (unfold Outstanding at *; grind)
      · next hw =>
        simp only [addList] at he
        cases he
        obtain ⟨⟨a1, a2⟩, ⟨b1, b2⟩, h3, h4, h5, h6, h7, h8, h9, h10, h11, h12, h13, h14, h15, h16, h17, h18, h19, h20, h21, h22, h23, h24, h25, h26, h27, h28⟩ := h
        constructor <;> dsimp only
        case sideW => exact ⟨b1, b2⟩
        case sideR => exact ⟨a1, a2⟩
        all_goals first | assumption | grind
    · cases he
  case popRead =>
    split at he
    · next k hcur =>
      split at he
      · next ht =>
        split at he
        · cases he
        have hk : s.kind = .conn := by
          by_cases hk : s.kind = .conn
          · exact hk
          · rw [(hconn hk).2.1] at hcur; cases hcur
        simp only [St.decide, St.finishR] at he
        cases he
        obtain ⟨⟨a1, a2⟩, ⟨b1, b2⟩, h3, h4, h5, h6, h7, h8, h9, h10, h11, h12, h13, h14, h15, h16, h17, h18, h19, h20, h21, h22, h23, h24, h25, h26, h27, h28⟩ := h
        obtain ⟨hr2, hkr⟩ := h21 k hcur ht
        have hr := h22 k hcur hkr
        have ho := h3 hr
        obtain ⟨x1, x3, x4⟩ : s.pendR = none ∧ pk .r s.port = [] ∧ s.rid ∉ s.outcome.map Prod.fst := by
          rcases a2 hr with ⟨_, y1, y2, y3⟩ | ⟨e, _⟩ | ⟨e, _⟩
          · exact ⟨y1, y2, y3⟩
          · rw [hr2] at e; cases e
          · rw [hr2] at e; cases e
        have hne : s.write = true → s.wid ≠ s.rid := by
          intro hw e
          have := (h4 hw).2
          rw [e, ho.2] at this
          cases this
        have hd := nodup_snoc (v := 0) h9 x4
        have hd2 := nodup_snoc (v := 0) h7 ho.1.2
        constructor <;> (try unfold Outstanding) <;> dsimp only
        case sideR => exact ⟨fun _ => ⟨rfl, x1, x3⟩, fun e => by cases e⟩
        case sideW =>
          constructor
          · exact b1
          · intro hr
            have := hne hr
            simp only [mem_fst_snoc, List.mem_append]
            grind
        case out_nodup => exact hd
        case done_nodup => exact hd2
        all_goals (try simp only [mem_fst_snoc])
        all_goals first | assumption | (unfold Outstanding at *; grind)
      · cases he
    · cases he
  case popEnd =>
    split at he
    · next k hcur =>
      have hk : s.kind = .conn := by
        by_cases hk : s.kind = .conn
        · exact hk
        · rw [(hconn hk).2.1] at hcur; cases hcur
      split at he
      · cases he
      next ht =>
      split at he
      · split at he
        · cases he
        simp only [ensureRw, addList] at he
        obtain ⟨c1, c2, h3, h4, h5, h6, h7, h8, h9, h10, h11, h12, h13, h14, h15, h16, h17, h18, h19, h20, h21, h22, h23, h24, h25, h26, h27, h28⟩ := h
        split at he <;> cases he
        · constructor <;> dsimp only
          all_goals first | assumption | grind
        · constructor <;> dsimp only
          all_goals first | assumption | grind
      · cases he
        obtain ⟨c1, c2, h3, h4, h5, h6, h7, h8, h9, h10, h11, h12, h13, h14, h15, h16, h17, h18, h19, h20, h21, h22, h23, h24, h25, h26, h27, h28⟩ := h
        constructor <;> dsimp only
        all_goals first | assumption | grind
    · cases he

theorem Hist.inv {k : Kind} {s : St} (h : Hist k s) : Inv s := by
  induction h with
  | init => exact inv_init k
  | step op _ hc he ih => exact step_inv ih hc he

end Kasync.Iocp
