import Verif.Uring.Model
import Mathlib.Tactic.ClearExcept

/-! # Invariant of the io_uring selector -/

namespace Kasync.Uring

/-- every entry whose completion has not been handled -/
def St.live (s : St) : List Sqe := s.sq ++ s.inflight ++ s.cq.map (·.1)

/-- is the entry for this slot? -/
def Sqe.on (k : Key) : Sqe → Bool
  | .op k' _ => k' = k
  | _ => false

def cnt (s : St) (k : Key) : Nat := s.live.countP (Sqe.on k)

/-- a request of this slot is with the kernel -/
def busy (s : St) (k : Key) : Bool := (s.slots k).flag && !(s.usepoll k.1 && (s.slots k).ready)

/-- the slot still says what the entry was made for -/
def Tagged (s : St) (k : Key) (t : Tag) : Prop :=
  (s.slots k).st = k.1 ∧
  match t.kind with
  | .data => (s.slots k).cb = .user t.req ∧ (s.slots k).nullb = false
  | .poll => (s.slots k).cb = .user t.req ∧ (s.slots k).nullb = !s.usepoll k.1
  | .sfFile => (s.slots k).cb = .sfFile t.req
  | .sfSock b => (s.slots k).cb = .sfSock t.req ∧ (s.slots k).nullb = b

/-- where an answer comes from -/
def Just (s : St) (p : Nat × Int) : Prop :=
  p ∈ s.own ∨ (⟨p.1, .data⟩, p.2) ∈ s.done ∨ (∃ w, (⟨p.1, .poll⟩, w) ∈ s.done ∧ p.2 = if w > 0 then 0 else w) ∨
  (∃ b w v, (⟨p.1, .sfSock b⟩, w) ∈ s.done ∧ (⟨p.1, .sfFile⟩, v) ∈ s.done ∧ p.2 = if w > 0 ∧ b = true then 0 else w)

structure SfOk (s : St) (p : Option Nat) (i : Nat) (sf : Sf) : Prop where
  lt : i < s.next
  uf : s.usepoll sf.file = false
  us : s.usepoll sf.st = false
  f1 : sf.p1 = true → (s.slots (sf.file, .r)).flag = true ∧ (s.slots (sf.file, .r)).cb = .sfFile i
  f0 : sf.p0 = true → sf.skip = false → (s.slots (sf.st, .w)).flag = true ∧ (s.slots (sf.st, .w)).cb = .sfSock i
  fw : (s.slots (sf.file, .w)).flag = false ∧ (s.slots (sf.file, .w)).cb = .user i
  refs : sf.refs = (if sf.p1 = true then 1 else 0) + (if sf.p0 = true ∧ sf.skip = false then 1 else 0)
  pos : 0 < sf.refs
  sk : sf.skip = true → sf.p0 = true ∧ sf.p1 = true
  ans : sf.skip = true ↔ i ∈ s.ans.map (·.1) ∨ p = some i
  d0 : sf.p0 = false → ∃ b w, (⟨i, .sfSock b⟩, w) ∈ s.done ∧ sf.got = if w > 0 ∧ b = true then 0 else w
  d1 : sf.p1 = false → ∃ v, (⟨i, .sfFile⟩, v) ∈ s.done

/-- the invariant, while request `p` (if any) is being handled -/
structure Inv (s : St) (p : Option Nat) : Prop where
  hd : s.head ≤ s.hist.length
  sane : Sqe.zero ∉ s.live
  cnt : ∀ k, cnt s k = if busy s k = true then 1 else 0
  tags : ∀ k t, .op k t ∈ s.live → Tagged s k t
  rdy : ∀ k, (s.slots k).flag = true → s.usepoll k.1 = true → ∃ i, (s.slots k).cb = .user i
  nur : ∀ k, s.usepoll k.1 = false → (s.slots k).ready = false
  cbU : ∀ k i, (s.slots k).flag = true → (s.slots k).cb = .user i → i < s.next ∧ i ∉ s.ans.map (·.1) ∧ s.sfs i = none ∧
    ∀ k', (s.slots k').flag = true → (s.slots k').cb = .user i → k' = k
  cbF : ∀ k i, (s.slots k).flag = true → (s.slots k).cb = .sfFile i → ∃ sf, s.sfs i = some sf ∧ k = (sf.file, .r) ∧ sf.p1 = true
  cbS : ∀ k i, (s.slots k).flag = true → (s.slots k).cb = .sfSock i →
    ∃ sf, s.sfs i = some sf ∧ k = (sf.st, .w) ∧ sf.p0 = true ∧ sf.skip = false
  cbN : ∀ k, (s.slots k).flag = true → (s.slots k).cb ≠ .none
  sfi : ∀ i sf, s.sfs i = some sf → SfOk s p i sf
  sfu : ∀ i j sf sf', s.sfs i = some sf → s.sfs j = some sf' → sf.file = sf'.file → i = j
  pipe : ∀ i, s.pipes i = match s.sfs i with | some sf => (sf.p0, sf.p1) | none => (false, false)
  ansN : (s.ans.map (·.1)).Nodup
  ansL : ∀ i ∈ s.ans.map (·.1), i < s.next
  fresh : ∀ i, p = some i → i < s.next ∧ i ∉ s.ans.map (·.1) ∧ (∀ k, (s.slots k).flag = true → (s.slots k).cb ≠ .user i) ∧
    ∀ sf, s.sfs i = some sf → sf.skip = true
  tot : ∀ i, i < s.next → i ∈ s.ans.map (·.1) ∨ p = some i ∨ (∃ k, (s.slots k).flag = true ∧ (s.slots k).cb = .user i) ∨
    ∃ sf, s.sfs i = some sf ∧ sf.skip = false
  just : ∀ p ∈ s.ans, Just s p

theorem upd_same {α β : Type} [DecidableEq α] (f : α → β) (a : α) (b : β) : upd f a b a = b := by simp [upd]
theorem upd_ne {α β : Type} [DecidableEq α] (f : α → β) {a x : α} (b : β) (h : x ≠ a) : upd f a b x = f x := by simp [upd, h]
theorem upd_upd {α β : Type} [DecidableEq α] (f : α → β) (a : α) (b c : β) : upd (upd f a b) a c = upd f a c := by
  funext x; simp only [upd]; split <;> rfl

theorem inv_init (cap : Nat) (up : Nat → Bool) : Inv { cap := cap, usepoll := up } none := by
  constructor <;> simp [St.live, St.sq, cnt, busy]

/-- the same state up to the place of the entries -/
structure Eqv (s s' : St) : Prop where
  cap : s'.cap = s.cap
  up : s'.usepoll = s.usepoll
  slots : s'.slots = s.slots
  sfs : s'.sfs = s.sfs
  pipes : s'.pipes = s.pipes
  next : s'.next = s.next
  ans : s'.ans = s.ans
  done : s'.done = s.done
  own : s'.own = s.own
  hd : s.head ≤ s.hist.length → s'.head ≤ s'.hist.length
  perm : s'.live.Perm s.live

theorem Eqv.inv {s s' : St} {p : Option Nat} (e : Eqv s s') (h : Inv s p) : Inv s' p := by
  have hmem : ∀ q, q ∈ s'.live ↔ q ∈ s.live := fun q => e.perm.mem_iff
  have hc : ∀ k, Uring.cnt s' k = Uring.cnt s k := fun k => e.perm.countP_eq _
  have hb : ∀ k, busy s' k = busy s k := fun k => by simp [busy, e.slots, e.up]
  have hj : ∀ p, Just s p → Just s' p := by
    intro p hp
    simpa only [Just, e.own, e.done] using hp
  constructor
  · exact e.hd h.hd
  · rw [hmem]; exact h.sane
  · intro k; rw [hc, hb]; exact h.cnt k
  · intro k t ht
    have := h.tags k t ((hmem _).1 ht)
    simpa only [Tagged, e.slots, e.up] using this
  · rw [e.slots, e.up]; exact h.rdy
  · rw [e.slots, e.up]; exact h.nur
  · rw [e.slots, e.next, e.ans, e.sfs]; exact h.cbU
  · rw [e.slots, e.sfs]; exact h.cbF
  · rw [e.slots, e.sfs]; exact h.cbS
  · rw [e.slots]; exact h.cbN
  · intro i sf hs
    rw [e.sfs] at hs
    obtain ⟨a, b, c, d, f, g, i, j, k, l, m, n⟩ := h.sfi i sf hs
    constructor
    all_goals first | (rw [e.next]; assumption) | (rw [e.up]; assumption) | (rw [e.slots]; assumption) | (rw [e.ans]; assumption) | (rw [e.done]; assumption) | assumption
  · rw [e.sfs]; exact h.sfu
  · rw [e.sfs, e.pipes]; exact h.pipe
  · rw [e.ans]; exact h.ansN
  · rw [e.ans, e.next]; exact h.ansL
  · rw [e.ans, e.next, e.slots, e.sfs]; exact h.fresh
  · rw [e.ans, e.next, e.slots, e.sfs]; exact h.tot
  · intro p hp; rw [e.ans] at hp; exact hj p (h.just p hp)

theorem Eqv.refl (s : St) : Eqv s s := ⟨rfl, rfl, rfl, rfl, rfl, rfl, rfl, rfl, rfl, id, List.Perm.refl _⟩

theorem submit_sq (s : St) (n : Nat) : (submit s n).sq = s.sq.drop n := by
  have hd : List.drop (min n s.sq.length) s.sq = s.sq.drop n := by
    by_cases hn : n ≤ s.sq.length
    · rw [Nat.min_eq_left hn]
    · rw [Nat.min_eq_right (by omega), List.drop_length, List.drop_eq_nil_of_le (by omega)]
  simp only [submit, St.sq] at hd ⊢
  rw [← List.drop_drop]; exact hd

theorem submit_eqv (s : St) (n : Nat) : Eqv s (submit s n) := by
  refine ⟨rfl, rfl, rfl, rfl, rfl, rfl, rfl, rfl, rfl, ?_, ?_⟩
  · intro h; simp only [submit, St.sq, List.length_drop]; omega
  · have h1 : (submit s n).live = s.sq.drop n ++ (s.inflight ++ s.sq.take n) ++ s.cq.map (·.1) := by
      rw [St.live, submit_sq]; rfl
    rw [h1, St.live]
    apply List.Perm.append_right
    have h2 : s.sq ++ s.inflight = s.sq.take n ++ (s.sq.drop n ++ s.inflight) := by
      rw [← List.append_assoc, List.take_append_drop]
    rw [h2, ← List.append_assoc]
    exact List.perm_append_comm

theorem getSeq_eqv (s : St) (sub : Option Nat) : Eqv s (getSeq s sub).1 := by
  unfold getSeq
  split
  · exact Eqv.refl s
  · cases sub with
    | none => exact Eqv.refl s
    | some n => exact submit_eqv s n

/-- an entry got is one that fits -/
theorem getSeq_room (s : St) (sub : Option Nat) (h : (getSeq s sub).2 = true) : (getSeq s sub).1.sq.length < s.cap := by
  unfold getSeq at h ⊢
  split
  · assumption
  · rename_i hn
    cases sub with
    | none => simp [hn] at h
    | some n =>
      simp only [hn, if_false] at h ⊢
      exact of_decide_eq_true h

theorem push_live (s : St) (q : Sqe) (h : s.head ≤ s.hist.length) : (push s q).live.Perm (q :: s.live) := by
  have h1 : (push s q).sq = s.sq ++ [q] := by
    simp only [push, St.sq]; rw [List.drop_append_of_le_length h]
  have h2 : (push s q).live = s.sq ++ [q] ++ s.inflight ++ s.cq.map (·.1) := by
    rw [St.live, h1]; rfl
  rw [h2, St.live, List.append_assoc, List.append_assoc, List.append_assoc]
  exact List.perm_middle

/-! ## How the entries of the slots change -/

theorem cnt_cons {s s' : St} {q : Sqe} (h : s'.live.Perm (q :: s.live)) (k : Key) :
    cnt s' k = cnt s k + if q.on k = true then 1 else 0 := by
  unfold cnt; rw [h.countP_eq, List.countP_cons]

theorem no_op {s : St} {k : Key} (h : cnt s k = 0) (t : Tag) : Sqe.op k t ∉ s.live := by
  intro hm
  have := List.countP_eq_zero.1 h _ hm
  simp [Sqe.on] at this

end Kasync.Uring
