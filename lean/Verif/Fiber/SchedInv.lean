import Verif.Fiber.SchedLemmas
import Mathlib.Tactic.ClearExcept

/-! # The invariant of fiber switching is kept -/

namespace Kasync.Sched

variable {dbg : Bool} {s s' : St} {L : List Nat}

theorem resumed_wakeup {g obj : Nat} {v : Int} (hi : InvL s L) (hg : s.cur ≠ g)
    (hst : (s.fib g).st = .inWait ∨ (s.fib g).st = .fresh) (ht : (s.fib g).tok = true) :
    InvL (resumed (issue s g v false) g obj v) (g :: L) := by
  have hgl : g ∉ L := fun h => by have := (hi.act g).1 h; rcases hst with e | e <;> simp [e, Stat.active] at this
  have hg' : g ≠ s.cur := fun h => hg h.symm
  have hg0 : g ≠ 0 := fun h => hgl (h ▸ hi.chain.zero_mem.1)
  obtain ⟨hd, chain, nodup, act, cur, main, from0, tok, self, flags, fresh, wait, gone, unborn, inbox, inboxNodup, posted, givenNodup, givenNo, retNodup, retGiven, retNo, givenRet, ready, readyNodup, exiting, exits, exitedSt, exitedNodup⟩ := hi
  have hcr := (cur s.cur).2 rfl
  constructor <;> try simp only [resumed, issue, St.upd]
  case hd => rfl
  case chain =>
    cases L with
    | nil => exact chain.elim
    | cons x t =>
      simp only [List.head?_cons, Option.some.injEq] at hd; subst hd
      exact ⟨by simp, chain.congr (fun f hf => by
        have : f ≠ g := fun h => hgl (h ▸ hf)
        by_cases hc : f = s.cur <;> simp [this, hc, hg])⟩
  case nodup => clear * - nodup hgl; grind [key, Stat.active]
  case act => clear * - act hg hg' hcr; grind [key, Stat.active]
  case cur => clear * - cur hcr hg; grind [key, Stat.active]
  case main => clear * - main hg0; grind [key, Stat.active]
  case from0 => clear * - from0 hst hcr; grind [key, Stat.active]
  case tok => clear * - tok ht; grind [key, Stat.active]
  case self => clear * - self hst hcr; grind [key, Stat.active]
  case flags => clear * - flags hst hcr tok ht hg; grind [key, Stat.active]
  case fresh => clear * - fresh hst hcr hg; grind [key, Stat.active]
  case wait => clear * - wait hst hcr hg; grind [key, Stat.active]
  case gone => clear * - gone hst hcr hg; grind [key, Stat.active]
  case unborn => clear * - unborn hst hcr hg; grind [key, Stat.active]
  case inbox => clear * - inbox ht hg; grind [key, Stat.active]
  case posted => clear * - posted hg; grind [key, Stat.active]
  case givenNodup => clear * - givenNodup tok ht; grind [key, Stat.active]
  case givenNo => clear * - givenNo; grind [key, Stat.active]
  case retNodup => clear * - retNodup retGiven tok ht; grind [key, Stat.active]
  case retGiven => clear * - retGiven; grind [key, Stat.active]
  case retNo => clear * - retNo; grind [key, Stat.active]
  case givenRet => clear * - givenRet tok ht; grind [key, Stat.active]
  case ready => clear * - ready hst hcr; grind [key, Stat.active]
  case exiting => clear * - exiting; grind [key, Stat.active]
  case exitedSt => clear * - exitedSt hst hcr; grind [key, Stat.active]
  all_goals assumption

theorem resumed_deliver {m : Msg} (hi : InvL s L) (hg : s.cur ≠ m.fib)
    (hst : (s.fib m.fib).st = .inWait ∨ (s.fib m.fib).st = .fresh) (hm : m ∈ s.inbox) :
    InvL (resumed { s with inbox := s.inbox.erase m } m.fib m.obj m.val) (m.fib :: L) := by
  have hmi := hi.inbox m hm
  have hme : ∀ m' ∈ s.inbox, m'.fib = m.fib → m' = m := fun m' h' e => nodup_map_inj hi.inboxNodup h' hm e
  have hnd : s.inbox.Nodup := List.Pairwise.of_map Msg.fib (fun _ _ h e => h (e ▸ rfl)) hi.inboxNodup
  have hmem : ∀ m', m' ∈ s.inbox.erase m ↔ m' ∈ s.inbox ∧ m' ≠ m := fun m' => by rw [hnd.mem_erase_iff]; exact and_comm
  have hsub : ((s.inbox.erase m).map Msg.fib).Nodup := hi.inboxNodup.sublist ((List.erase_sublist).map _)
  generalize hgm : m.fib = g at *
  have hgl : g ∉ L := fun h => by have := (hi.act g).1 h; rcases hst with e | e <;> simp [e, Stat.active] at this
  have hg' : g ≠ s.cur := fun h => hg h.symm
  have hg0 : g ≠ 0 := fun h => hgl (h ▸ hi.chain.zero_mem.1)
  obtain ⟨hd, chain, nodup, act, cur, main, from0, tok, self, flags, fresh, wait, gone, unborn, inbox, inboxNodup, posted, givenNodup, givenNo, retNodup, retGiven, retNo, givenRet, ready, readyNodup, exiting, exits, exitedSt, exitedNodup⟩ := hi
  have hcr := (cur s.cur).2 rfl
  constructor <;> try simp only [resumed]
  case hd => rfl
  case chain =>
    cases L with
    | nil => exact chain.elim
    | cons x t =>
      simp only [List.head?_cons, Option.some.injEq] at hd; subst hd
      exact ⟨by simp, chain.congr (fun f hf => by
        have : f ≠ g := fun h => hgl (h ▸ hf)
        by_cases hc : f = s.cur <;> simp [this, hc, hg])⟩
  case givenRet =>
    intro e he
    by_cases hk : key e = (g, (s.fib g).no)
    · have : e = (g, (s.fib g).no, m.val) := nodup_map_inj givenNodup he (by rw [hmi.2.1]; exact hmi.2.2.2.2) hk
      exact Or.inl (by rw [this]; simp)
    · clear * - givenRet he hk; grind [key]
  case nodup => clear * - nodup hgl; grind [key, Stat.active]
  case act => clear * - act hg hg' hcr; grind [key, Stat.active]
  case cur => clear * - cur hcr hg; grind [key, Stat.active]
  case main => clear * - main hg0; grind [key, Stat.active]
  case from0 => clear * - from0 hst hcr; grind [key, Stat.active]
  case tok => clear * - tok hmi; grind [key, Stat.active]
  case self => clear * - self hst hcr; grind [key, Stat.active]
  case flags => clear * - flags hst hcr hmi hg; grind [key, Stat.active]
  case fresh => clear * - fresh hst hcr hg; grind [key, Stat.active]
  case wait => clear * - wait hst hcr hg; grind [key, Stat.active]
  case gone => clear * - gone hst hcr hg; grind [key, Stat.active]
  case unborn => clear * - unborn hst hcr hg; grind [key, Stat.active]
  case inbox => clear * - inbox hmem hme hg; grind [key, Stat.active]
  case posted => clear * - posted hmem hg hgm; grind [key, Stat.active]
  case givenNo => clear * - givenNo; grind [key, Stat.active]
  case retNodup => clear * - retNodup retGiven retNo hmi; grind [key, Stat.active]
  case retGiven => clear * - retGiven hmi; grind [key, Stat.active]
  case retNo => clear * - retNo; grind [key, Stat.active]
  case ready => clear * - ready hst hcr; grind [key, Stat.active]
  case exiting => clear * - exiting; grind [key, Stat.active]
  case exitedSt => clear * - exitedSt hst hcr; grind [key, Stat.active]
  all_goals assumption

theorem suspended_wait {o h : Nat} {t : List Nat} (hi : InvL s (s.cur :: h :: t)) (hf : (s.fib s.cur).sfrom = some h) (hh : (s.fib h).st = .inWake)
    (hne : h ≠ s.cur) (hp : (s.fib s.cur).pend = some o) (hs : (s.fib s.cur).self = false) :
    InvL (suspended s o h .inWait) (h :: t) := by
  have hfl := hi.flags s.cur (by rw [(hi.cur s.cur).2 rfl]; rfl)
  obtain ⟨hd, chain, nodup, act, cur, main, from0, tok, self, flags, fresh, wait, gone, unborn, inbox, inboxNodup, posted, givenNodup, givenNo, retNodup, retGiven, retNo, givenRet, ready, readyNodup, exiting, exits, exitedSt, exitedNodup⟩ := hi
  have hcr := (cur s.cur).2 rfl
  constructor <;> try simp only [suspended]
  case hd => rfl
  case chain => exact chain.2.congr (fun f _ => by clear * - hne; grind)
  case nodup => exact (List.nodup_cons.1 nodup).2
  case act => clear * - act hcr nodup hne; grind [key, Stat.active]
  case cur => clear * - cur hcr hne hh; grind [key, Stat.active]
  case main => clear * - main; grind [key, Stat.active]
  case from0 => clear * - from0 hcr hh; grind [key, Stat.active]
  case tok => clear * - tok; grind [key, Stat.active]
  case self => clear * - self hcr hh hs; grind [key, Stat.active]
  case flags => clear * - flags hcr hh; grind [key, Stat.active]
  case fresh => clear * - fresh; grind [key, Stat.active]
  case wait => clear * - wait hcr hp hfl hs hne; grind [key, Stat.active]
  case gone => clear * - gone hcr; grind [key, Stat.active]
  case unborn => clear * - unborn hcr hh; grind [key, Stat.active]
  case inbox => clear * - inbox; grind [key, Stat.active]
  case posted => clear * - posted; grind [key, Stat.active]
  case givenNo => clear * - givenNo; grind [key, Stat.active]
  case retNo => clear * - retNo; grind [key, Stat.active]
  case givenRet => clear * - givenRet; grind [key, Stat.active]
  case ready => clear * - ready hcr hh; grind [key, Stat.active]
  case exiting => clear * - exiting hcr hh; grind [key, Stat.active]
  case exitedSt => clear * - exitedSt hcr hh; grind [key, Stat.active]
  all_goals assumption

theorem suspended_exit {h : Nat} {v : Int} {t : List Nat} (hi : InvL s (s.cur :: h :: t)) (hf : (s.fib s.cur).sfrom = some h) (hh : (s.fib h).st = .inWake)
    (hne : h ≠ s.cur) (hp : (s.fib s.cur).pend = none) (hc0 : s.cur ≠ 0) :
    InvL (suspended { s.upd s.cur (fun f => { f with waitF := false, noticeF := false, retval := v }) with
      ready := s.ready ++ [(s.cur, v)], exited := (s.cur, v) :: s.exited } 0 h .inExit) (h :: t) := by
  obtain ⟨hd, chain, nodup, act, cur, main, from0, tok, self, flags, fresh, wait, gone, unborn, inbox, inboxNodup, posted, givenNodup, givenNo, retNodup, retGiven, retNo, givenRet, ready, readyNodup, exiting, exits, exitedSt, exitedNodup⟩ := hi
  have hcr := (cur s.cur).2 rfl
  have hnr : ∀ w, (s.cur, w) ∉ s.ready := fun w hw => by have := ready _ _ hw; rw [hcr] at this; cases this
  have hne' : ∀ w, (s.cur, w) ∉ s.exited := fun w hw => by have := exitedSt _ _ hw; rw [hcr] at this; simp at this
  constructor <;> try simp only [suspended, St.upd]
  case hd => rfl
  case chain => exact chain.2.congr (fun f _ => by clear * - hne; grind)
  case nodup => exact (List.nodup_cons.1 nodup).2
  case exits =>
    rw [← List.append_assoc]
    exact (exits.cons (s.cur, v)).trans (List.perm_append_singleton (s.cur, v) (s.reaped ++ s.ready)).symm
  case readyNodup =>
    rw [List.map_append, List.nodup_append]
    refine ⟨readyNodup, by simp, ?_⟩
    intro a ha b hb e
    obtain ⟨⟨a', w⟩, hw, rfl⟩ := List.mem_map.1 ha
    simp only [List.map_cons, List.map_nil, List.mem_singleton] at hb
    exact hnr w (by rw [← hb, ← e]; exact hw)
  case exitedNodup =>
    rw [List.map_cons, List.nodup_cons]
    refine ⟨fun ha => ?_, exitedNodup⟩
    obtain ⟨⟨a', w⟩, hw, he⟩ := List.mem_map.1 ha
    exact hne' w (by rw [show s.cur = a' from he.symm]; exact hw)
  case act => clear * - act hcr nodup hne; grind [key, Stat.active]
  case cur => clear * - cur hcr hne hh; grind [key, Stat.active]
  case main => clear * - main; grind [key, Stat.active]
  case from0 => clear * - from0 hcr hh; grind [key, Stat.active]
  case tok => clear * - tok hp; grind [key, Stat.active]
  case self => clear * - self hcr hh hp; grind [key, Stat.active]
  case flags => clear * - flags hcr hh; grind [key, Stat.active]
  case fresh => clear * - fresh; grind [key, Stat.active]
  case wait => clear * - wait hcr; grind [key, Stat.active]
  case gone => clear * - gone hcr hp; grind [key, Stat.active]
  case unborn => clear * - unborn hcr hh; grind [key, Stat.active]
  case inbox => clear * - inbox; grind [key, Stat.active]
  case posted => clear * - posted; grind [key, Stat.active]
  case givenNo => clear * - givenNo; grind [key, Stat.active]
  case retNo => clear * - retNo; grind [key, Stat.active]
  case givenRet => clear * - givenRet; grind [key, Stat.active]
  case ready => clear * - ready hcr hh; grind [key, Stat.active]
  case exiting => clear * - exiting hcr hh; grind [key, Stat.active]
  case exitedSt => clear * - exitedSt hcr hh; grind [key, Stat.active]
  all_goals assumption

theorem selfWaked {v : Int} {o : Nat} (hi : InvL s L) (ht : (s.fib s.cur).tok = true) (hp : (s.fib s.cur).pend = some o) :
    InvL ((issue s s.cur v true).upd s.cur (fun f => { f with code := if f.waitF then f.code else o, noticeF := true, retval := v })) L := by
  have hfl := hi.flags s.cur (by rw [(hi.cur s.cur).2 rfl]; rfl)
  obtain ⟨hd, chain, nodup, act, cur, main, from0, tok, self, flags, fresh, wait, gone, unborn, inbox, inboxNodup, posted, givenNodup, givenNo, retNodup, retGiven, retNo, givenRet, ready, readyNodup, exiting, exits, exitedSt, exitedNodup⟩ := hi
  have hcr := (cur s.cur).2 rfl
  constructor <;> try simp only [issue, St.upd]
  case chain => exact chain.congr (fun f _ => by by_cases h2 : f = s.cur <;> simp [h2])
  case act => clear * - act; grind [key, Stat.active]
  case cur => clear * - cur; grind [key, Stat.active]
  case main => clear * - main; grind [key, Stat.active]
  case from0 => clear * - from0; grind [key, Stat.active]
  case tok => clear * - tok; grind [key, Stat.active]
  case self => clear * - self hcr hp; grind [key, Stat.active]
  case flags => clear * - flags; grind [key, Stat.active]
  case fresh => clear * - fresh hcr; grind [key, Stat.active]
  case wait => clear * - wait hcr; grind [key, Stat.active]
  case gone => clear * - gone hp hcr; grind [key, Stat.active]
  case unborn => clear * - unborn hcr; grind [key, Stat.active]
  case inbox => clear * - inbox ht; grind [key, Stat.active]
  case posted => clear * - posted; grind [key, Stat.active]
  case givenNodup => clear * - givenNodup tok ht; grind [key, Stat.active]
  case givenNo => clear * - givenNo; grind [key, Stat.active]
  case retGiven => clear * - retGiven; grind [key, Stat.active]
  case retNo => clear * - retNo; grind [key, Stat.active]
  case givenRet => clear * - givenRet hp; grind [key, Stat.active]
  case ready => clear * - ready; grind [key, Stat.active]
  case exiting => clear * - exiting; grind [key, Stat.active]
  case exitedSt => clear * - exitedSt; grind [key, Stat.active]
  all_goals assumption

theorem selfReturned {o : Nat} (hi : InvL s L) (hs : (s.fib s.cur).self = true) (hp : (s.fib s.cur).pend = some o) :
    InvL { s.upd s.cur (fun f => { f with waitF := false, noticeF := false, pend := none, self := false }) with
                     returned := (s.cur, (s.fib s.cur).no, (s.fib s.cur).retval) :: s.returned } L := by
  have hsl := hi.self s.cur hs
  obtain ⟨hd, chain, nodup, act, cur, main, from0, tok, self, flags, fresh, wait, gone, unborn, inbox, inboxNodup, posted, givenNodup, givenNo, retNodup, retGiven, retNo, givenRet, ready, readyNodup, exiting, exits, exitedSt, exitedNodup⟩ := hi
  have hcr := (cur s.cur).2 rfl
  constructor <;> try simp only [St.upd]
  case chain => exact chain.congr (fun f _ => by by_cases h2 : f = s.cur <;> simp [h2])
  case givenRet =>
    intro e he
    by_cases hk : key e = (s.cur, (s.fib s.cur).no)
    · have : e = (s.cur, (s.fib s.cur).no, (s.fib s.cur).retval) := nodup_map_inj givenNodup he hsl.2.2 hk
      exact Or.inl (by rw [this]; simp)
    · clear * - givenRet he hk; grind [key]
  case act => clear * - act; grind [key, Stat.active]
  case cur => clear * - cur; grind [key, Stat.active]
  case main => clear * - main; grind [key, Stat.active]
  case from0 => clear * - from0; grind [key, Stat.active]
  case tok => clear * - tok hs; grind [key, Stat.active]
  case self => clear * - self; grind [key, Stat.active]
  case flags => clear * - flags; grind [key, Stat.active]
  case fresh => clear * - fresh hcr; grind [key, Stat.active]
  case wait => clear * - wait hcr; grind [key, Stat.active]
  case gone => clear * - gone; grind [key, Stat.active]
  case unborn => clear * - unborn; grind [key, Stat.active]
  case inbox => clear * - inbox hs; grind [key, Stat.active]
  case posted => clear * - posted; grind [key, Stat.active]
  case givenNo => clear * - givenNo; grind [key, Stat.active]
  case retNodup => clear * - retNodup retGiven retNo hp; grind [key, Stat.active]
  case retGiven => clear * - retGiven hsl; grind [key, Stat.active]
  case retNo => clear * - retNo; grind [key, Stat.active]
  case ready => clear * - ready; grind [key, Stat.active]
  case exiting => clear * - exiting; grind [key, Stat.active]
  case exitedSt => clear * - exitedSt; grind [key, Stat.active]
  all_goals assumption

theorem armed {o : Nat} (hi : InvL s L) (hp : (s.fib s.cur).pend = none) (hc0 : s.cur ≠ 0) :
    InvL (s.upd s.cur (fun f => { f with pend := some o, tok := true, no := f.no + 1 })) L := by
  obtain ⟨hd, chain, nodup, act, cur, main, from0, tok, self, flags, fresh, wait, gone, unborn, inbox, inboxNodup, posted, givenNodup, givenNo, retNodup, retGiven, retNo, givenRet, ready, readyNodup, exiting, exits, exitedSt, exitedNodup⟩ := hi
  have hcr := (cur s.cur).2 rfl
  constructor <;> try simp only [St.upd]
  case chain => exact chain.congr (fun f _ => by by_cases h2 : f = s.cur <;> simp [h2])
  case act => clear * - act; grind [key, Stat.active]
  case cur => clear * - cur; grind [key, Stat.active]
  case main => clear * - main hc0; grind [key, Stat.active]
  case from0 => clear * - from0; grind [key, Stat.active]
  case tok => clear * - tok self givenNo hp; grind [key, Stat.active]
  case self => clear * - self hp; grind [key, Stat.active]
  case flags => clear * - flags; grind [key, Stat.active]
  case fresh => clear * - fresh hcr; grind [key, Stat.active]
  case wait => clear * - wait hcr; grind [key, Stat.active]
  case gone => clear * - gone hcr; grind [key, Stat.active]
  case unborn => clear * - unborn; grind [key, Stat.active]
  case inbox => clear * - inbox hp; grind [key, Stat.active]
  case posted => clear * - posted; grind [key, Stat.active]
  case givenNo => clear * - givenNo; grind [key, Stat.active]
  case retNo => clear * - retNo retGiven givenNo; grind [key, Stat.active]
  case givenRet => clear * - givenRet hp; grind [key, Stat.active]
  case ready => clear * - ready; grind [key, Stat.active]
  case exiting => clear * - exiting; grind [key, Stat.active]
  case exitedSt => clear * - exitedSt; grind [key, Stat.active]
  all_goals assumption

theorem posted' {g : Nat} {v : Int} (hi : InvL s L) (ht : (s.fib g).tok = true) :
    InvL { issue s g v false with inbox := ⟨g, s.obj g, v, (s.fib g).no⟩ :: s.inbox } L := by
  have htk := hi.tok g ht
  have hob : (s.fib g).pend = some (s.obj g) := by
    unfold St.obj; cases h : (s.fib g).pend with
    | none => exact absurd h htk.1
    | some o => rfl
  obtain ⟨hd, chain, nodup, act, cur, main, from0, tok, self, flags, fresh, wait, gone, unborn, inbox, inboxNodup, posted, givenNodup, givenNo, retNodup, retGiven, retNo, givenRet, ready, readyNodup, exiting, exits, exitedSt, exitedNodup⟩ := hi
  have hcr := (cur s.cur).2 rfl
  constructor <;> try simp only [issue, St.upd]
  case chain => exact chain.congr (fun f _ => by by_cases h2 : f = g <;> simp [h2])
  case posted =>
    intro f hf
    by_cases hfg : f = g
    · subst hfg; exact Or.inr (Or.inr ⟨_, List.mem_cons_self, rfl⟩)
    · clear * - posted hf hfg; grind
  case inboxNodup =>
    rw [List.map_cons, List.nodup_cons]
    refine ⟨fun h => ?_, inboxNodup⟩
    obtain ⟨m, hm, he⟩ := List.mem_map.1 h
    have := (inbox m hm).2.2.1
    rw [show m.fib = g from he, ht] at this; cases this
  case act => clear * - act; grind [key, Stat.active]
  case cur => clear * - cur; grind [key, Stat.active]
  case main => clear * - main; grind [key, Stat.active]
  case from0 => clear * - from0; grind [key, Stat.active]
  case tok => clear * - tok ht; grind [key, Stat.active]
  case self => clear * - self; grind [key, Stat.active]
  case flags => clear * - flags htk; grind [key, Stat.active]
  case fresh => clear * - fresh; grind [key, Stat.active]
  case wait => clear * - wait; grind [key, Stat.active]
  case gone => clear * - gone; grind [key, Stat.active]
  case unborn => clear * - unborn gone hob; grind [key, Stat.active]
  case inbox => clear * - inbox hob ht; grind [key, Stat.active]
  case givenNodup => clear * - givenNodup htk; grind [key, Stat.active]
  case givenNo => clear * - givenNo; grind [key, Stat.active]
  case retGiven => clear * - retGiven; grind [key, Stat.active]
  case retNo => clear * - retNo; grind [key, Stat.active]
  case givenRet => clear * - givenRet hob; grind [key, Stat.active]
  case ready => clear * - ready; grind [key, Stat.active]
  case exiting => clear * - exiting; grind [key, Stat.active]
  case exitedSt => clear * - exitedSt; grind [key, Stat.active]
  all_goals assumption

theorem created {g : Nat} (hi : InvL s L) (hg : (s.fib g).st = .none) :
    InvL (s.upd g (fun _ => { st := .fresh, pend := some 0, tok := true })) L := by
  have hgl : g ∉ L := fun h => by have := (hi.act g).1 h; simp [hg, Stat.active] at this
  have hg0 : g ≠ 0 := fun h => hgl (h ▸ hi.chain.zero_mem.1)
  obtain ⟨hd, chain, nodup, act, cur, main, from0, tok, self, flags, fresh, wait, gone, unborn, inbox, inboxNodup, posted, givenNodup, givenNo, retNodup, retGiven, retNo, givenRet, ready, readyNodup, exiting, exits, exitedSt, exitedNodup⟩ := hi
  have hcr := (cur s.cur).2 rfl
  constructor <;> try simp only [St.upd]
  case chain => exact chain.congr (fun f hf => by
      have : f ≠ g := fun h => hgl (h ▸ hf)
      simp [this])
  case act => clear * - act hg; grind [key, Stat.active]
  case cur => clear * - cur hg; grind [key, Stat.active]
  case main => clear * - main hg0; grind [key, Stat.active]
  case from0 => clear * - from0; grind [key, Stat.active]
  case tok => clear * - tok unborn hg; grind [key, Stat.active]
  case self => clear * - self; grind [key, Stat.active]
  case flags => clear * - flags; grind [key, Stat.active]
  case fresh => clear * - fresh; grind [key, Stat.active]
  case wait => clear * - wait; grind [key, Stat.active]
  case gone => clear * - gone; grind [key, Stat.active]
  case unborn => clear * - unborn; grind [key, Stat.active]
  case inbox => clear * - inbox gone hg; grind [key, Stat.active]
  case posted => clear * - posted; grind [key, Stat.active]
  case givenNo => clear * - givenNo unborn hg; grind [key, Stat.active]
  case retNo => clear * - retNo retGiven unborn hg; grind [key, Stat.active]
  case givenRet => clear * - givenRet unborn hg; grind [key, Stat.active]
  case ready => clear * - ready hg; grind [key, Stat.active]
  case exiting => clear * - exiting; grind [key, Stat.active]
  case exitedSt => clear * - exitedSt hg; grind [key, Stat.active]
  all_goals assumption

theorem reaped' {g : Nat} {v : Int} {rest : List (Nat × Int)} (hi : InvL s L) (hr : s.ready = (g, v) :: rest) (hg : (s.fib g).st = .inExit) :
    InvL { s.upd g (fun f => { f with st := .freed, retval := v }) with ready := rest, reaped := (g, v) :: s.reaped } L := by
  obtain ⟨hd, chain, nodup, act, cur, main, from0, tok, self, flags, fresh, wait, gone, unborn, inbox, inboxNodup, posted, givenNodup, givenNo, retNodup, retGiven, retNo, givenRet, ready, readyNodup, exiting, exits, exitedSt, exitedNodup⟩ := hi
  have hcr := (cur s.cur).2 rfl
  rw [hr] at readyNodup exits
  simp only [hr] at ready exiting
  rw [List.map_cons, List.nodup_cons] at readyNodup
  have hnr : ∀ w, (g, w) ∉ rest := fun w hw => readyNodup.1 (List.mem_map.2 ⟨_, hw, rfl⟩)
  have hrn := readyNodup.2
  have hex : s.exited.Perm ((g, v) :: s.reaped ++ rest) := exits.trans List.perm_middle
  have hself : (s.fib g).self = false := by
    cases h : (s.fib g).self
    · rfl
    · have := (self g h).2.1; simp [hg, Stat.active] at this
  constructor <;> try simp only [St.upd]
  case chain => exact chain.congr (fun f _ => by by_cases h2 : f = g <;> simp [h2])
  case act => clear * - act hg; grind [key, Stat.active]
  case cur => clear * - cur hg; grind [key, Stat.active]
  case main => clear * - main; grind [key, Stat.active]
  case from0 => clear * - from0 hg; grind [key, Stat.active]
  case tok => clear * - tok; grind [key, Stat.active]
  case self => clear * - self hself; grind [key, Stat.active]
  case flags => clear * - flags; grind [key, Stat.active]
  case fresh => clear * - fresh; grind [key, Stat.active]
  case wait => clear * - wait; grind [key, Stat.active]
  case gone => clear * - gone hg; grind [key, Stat.active]
  case unborn => clear * - unborn; grind [key, Stat.active]
  case inbox => clear * - inbox; grind [key, Stat.active]
  case posted => clear * - posted; grind [key, Stat.active]
  case givenNo => clear * - givenNo; grind [key, Stat.active]
  case retNo => clear * - retNo; grind [key, Stat.active]
  case givenRet => clear * - givenRet; grind [key, Stat.active]
  case ready => clear * - ready hnr; grind [key, Stat.active]
  case exiting => clear * - exiting; grind [key, Stat.active]
  case exitedSt => clear * - exitedSt; grind [key, Stat.active]
  all_goals assumption

end Kasync.Sched
