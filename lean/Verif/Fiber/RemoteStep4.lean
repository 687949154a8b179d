import Verif.Fiber.RemoteStep3

/-! # Steps of the invariant of C58: `result_fiber_exit` -/

namespace Kasync.Remote

/-- the first part of `result_fiber_exit` -/
def reapSt (s : St) (x g : Nat) (rest : List Nat) : St :=
  { s.upd g (fun f => { f with st := .notified, ev := f.ev || f.cond.isSome, waiter := [] }) with
      ready := fun y => if y = x then rest else s.ready y, reaping := fun y => if y = x then some g else s.reaping y }

theorem inv_reapNone {s : St} {x g : Nat} {rest : List Nat} (hi : Inv s) (hr : s.ready x = g :: rest) (hid : s.reaping x = none)
    (hw : (s.fib g).waiter = []) : Inv (reapSt s x g rest) := by
  have hf : flight (reapSt s x g rest) = flight s := rfl
  have hnd := hi.loc.nd
  have hst := (hi.loc.rdy x g).1 (by rw [hr]; exact List.mem_cons_self)
  have hrn := hi.loc.rnd x
  rw [hr] at hrn
  have h1 : ∀ w, (s.fib g).owner = some (w, false) → (s.fib g).cond.isSome := by
    intro w h; cases w with
    | fib c => rw [hi.jn.cnf g c _ h]; rfl
    | thr p => rw [hi.jn.cnt g p _ h]; rfl
  simp only [reapSt] at hf ⊢
  inv_tac hi hf hnd

theorem inv_reapThr {s : St} {x g p : Nat} {rest : List Nat} (hi : Inv s) (hr : s.ready x = g :: rest) (hid : s.reaping x = none)
    (hw : (s.fib g).waiter = [.thr p]) :
    Inv { reapSt s x g rest with thr := fun q => if q = p then .woken g else s.thr q } := by
  have hf : flight { reapSt s x g rest with thr := fun q => if q = p then .woken g else s.thr q } = flight s := rfl
  have hnd := hi.loc.nd
  have hst := (hi.loc.rdy x g).1 (by rw [hr]; exact List.mem_cons_self)
  have hrn := hi.loc.rnd x
  rw [hr] at hrn
  have ho : (s.fib g).owner = some (.thr p, true) := by rcases hi.jn.wtr g with h | ⟨w, h1, h2, h3⟩ <;> grind
  have hp : s.thr p = .waiting g := by
    rcases (hi.jn.oft g p).1 ho with h | h
    · exact h
    · have := hi.jn.twk g p h; rw [hst.1] at this; exact absurd this (by simp [done])
  simp only [reapSt] at hf ⊢
  inv_tac hi hf hnd

theorem inv_reapHere {s : St} {x g c : Nat} {rest : List Nat} (hi : Inv s) (hr : s.ready x = g :: rest) (hid : s.reaping x = none)
    (hw : (s.fib g).waiter = [.fib c]) (hx : (s.fib c).sel = x) :
    Inv (((reapSt s x g rest).upd c (fun f => { f with st := .joined g, retval := (s.fib g).retval })).push x c) := by
  have hf : flight (((reapSt s x g rest).upd c (fun f => { f with st := .joined g, retval := (s.fib g).retval })).push x c) = flight s := rfl
  have hnd := hi.loc.nd
  have hst := (hi.loc.rdy x g).1 (by rw [hr]; exact List.mem_cons_self)
  have hrn := hi.loc.rnd x
  rw [hr] at hrn
  have ho : (s.fib g).owner = some (.fib c, true) := by rcases hi.jn.wtr g with h | ⟨w, h1, h2, h3⟩ <;> grind
  have hp : (s.fib c).st = .waitJoin g := by
    rcases (hi.jn.ofj g c).1 ho with h | h
    · exact h
    · have := hi.jn.jnd g c h; rw [hst.1] at this; exact absurd this (by simp [done])
  have hcf : c ∉ flight s := by
    rcases hi.jn.wjn g c hp with h | h
    · exact h.2
    · rw [hst.1] at h; exact absurd h.1 (by simp [done])
  have hne : c ≠ g := by rintro rfl; rw [hst.1] at hp; cases hp
  simp only [reapSt] at hf ⊢
  have hcm : ∀ m ∈ s.inbox, m.fib ≠ c := fun m hm e => hcf (List.mem_append.2 (.inl (List.mem_map.2 ⟨m, hm, e⟩)))
  inv_tac hi hf hnd

theorem inv_reapPost {s : St} {x g c : Nat} {rest : List Nat} (hi : Inv s) (hr : s.ready x = g :: rest) (hid : s.reaping x = none)
    (hw : (s.fib g).waiter = [.fib c]) :
    Inv { reapSt s x g rest with inbox := s.inbox ++ [⟨(s.fib c).sel, c, .self c, (s.fib g).retval⟩] } := by
  have hst := (hi.loc.rdy x g).1 (by rw [hr]; exact List.mem_cons_self)
  have hrn := hi.loc.rnd x
  rw [hr] at hrn
  have ho : (s.fib g).owner = some (.fib c, true) := by rcases hi.jn.wtr g with h | ⟨w, h1, h2, h3⟩ <;> grind
  have hp : (s.fib c).st = .waitJoin g := by
    rcases (hi.jn.ofj g c).1 ho with h | h
    · exact h
    · have := hi.jn.jnd g c h; rw [hst.1] at this; exact absurd this (by simp [done])
  have hcf : c ∉ flight s := by
    rcases hi.jn.wjn g c hp with h | h
    · exact h.2
    · rw [hst.1] at h; exact absurd h.1 (by simp [done])
  have hne : c ≠ g := by rintro rfl; rw [hst.1] at hp; cases hp
  have hpm : (flight { reapSt s x g rest with inbox := s.inbox ++ [⟨(s.fib c).sel, c, .self c, (s.fib g).retval⟩] }).Perm (c :: flight s) := by
    simp only [flight, reapSt, St.upd]
    rw [List.map_append, List.append_assoc]
    exact List.perm_middle
  have hnd := hpm.nodup_iff.2 (List.nodup_cons.2 ⟨hcf, hi.loc.nd⟩)
  have hf := fun i => hpm.mem_iff (a := i)
  simp only [List.mem_cons] at hf
  simp only [reapSt] at hf hnd ⊢
  clear hpm
  inv_tac hi hf hnd

end Kasync.Remote
