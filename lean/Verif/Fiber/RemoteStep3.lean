import Verif.Fiber.RemoteStep2

/-! # Steps of the invariant of C58: exit and join -/

namespace Kasync.Remote

theorem inv_exit {s : St} {x c : Nat} {v : Int} (hi : Inv s) (hr : (s.fib c).st = .run) {l : List Nat} (hs : s.stack x = c :: l)
    (ho : (s.fib c).own = none) :
    Inv { s.upd c (fun f => { f with st := .exiting, retval := v }) with
      stack := fun y => if y = x then l else s.stack y, ready := fun y => if y = x then s.ready x ++ [c] else s.ready y } := by
  have hf : flight { s.upd c (fun f => { f with st := .exiting, retval := v }) with stack := fun y => if y = x then l else s.stack y, ready := fun y => if y = x then s.ready x ++ [c] else s.ready y } = flight s := rfl
  have hnd := hi.loc.nd
  inv_tac hi hf hnd

theorem inv_exitK {s : St} {x c : Nat} {v : Int} (hi : Inv s) (hr : (s.fib c).st = .run) {l : List Nat} (hs : s.stack x = c :: l)
    {k : Nat} (ho : (s.fib c).own = some k) :
    Inv { s.upd c (fun f => { f with st := .exiting, retval := v }) with
      stack := fun y => if y = x then l else s.stack y, ready := fun y => if y = x then s.ready x ++ [c] else s.ready y,
      hist := s.hist ++ [.left k v] } := by
  have hf : flight { s.upd c (fun f => { f with st := .exiting, retval := v }) with stack := fun y => if y = x then l else s.stack y, ready := fun y => if y = x then s.ready x ++ [c] else s.ready y, hist := s.hist ++ [.left k v] } = flight s := rfl
  have hnd := hi.loc.nd
  invl_tac hi hf hnd

theorem inv_joinEv {s : St} {c g : Nat} (hi : Inv s) (hr : (s.fib c).st = .run) (ho : (s.fib g).owner = some (.fib c, false))
    (he : (s.fib g).ev = true) :
    Inv ((s.upd g (fun f => { f with owner := some (.fib c, true) })).upd c (fun f => { f with st := .joined g })) := by
  have hf : flight ((s.upd g (fun f => { f with owner := some (.fib c, true) })).upd c (fun f => { f with st := .joined g })) = flight s := rfl
  have hnd := hi.loc.nd
  have hne : c ≠ g := by rintro rfl; have := hi.jn.evd c he; simp [hr, done] at this
  inv_tac hi hf hnd

theorem inv_joinWait {s : St} {x c g : Nat} (hi : Inv s) (hr : (s.fib c).st = .run) {l : List Nat} (hs : s.stack x = c :: l)
    (ho : (s.fib g).owner = some (.fib c, false)) (he : (s.fib g).ev = false) :
    Inv (((s.upd g (fun f => { f with owner := some (.fib c, true), waiter := .fib c :: f.waiter })).upd c
        (fun f => { f with st := .waitJoin g, code := .self c })).setStack x l) := by
  have hf : flight (((s.upd g (fun f => { f with owner := some (.fib c, true), waiter := .fib c :: f.waiter })).upd c (fun f => { f with st := .waitJoin g, code := .self c })).setStack x l) = flight s := rfl
  have hnd := hi.loc.nd
  have hcf : c ∉ flight s := not_flight hi (by simp [hr, calling]) (by simp [hr]) (by simp [hr])
  have hw : (s.fib g).waiter = [] := by rcases hi.jn.wtr g with h | ⟨w, h1, h2, h3⟩; exact h; rw [ho] at h2; cases h2
  have hnd' : ¬ done (s.fib g).st := by intro h; have := hi.jn.evo g _ h ho; rw [he] at this; cases this
  inv_tac hi hf hnd

theorem inv_tJoinEv {s : St} {p g : Nat} (hi : Inv s) (hr : s.thr p = .idle) (ho : (s.fib g).owner = some (.thr p, false))
    (he : (s.fib g).ev = true) :
    Inv { s.upd g (fun f => { f with owner := some (.thr p, true), ev := false }) with thr := fun q => if q = p then .woken g else s.thr q } := by
  have hf : flight { s.upd g (fun f => { f with owner := some (.thr p, true), ev := false }) with thr := fun q => if q = p then .woken g else s.thr q } = flight s := rfl
  have hnd := hi.loc.nd
  inv_tac hi hf hnd

theorem inv_tJoinWait {s : St} {p g : Nat} (hi : Inv s) (hr : s.thr p = .idle) (ho : (s.fib g).owner = some (.thr p, false))
    (he : (s.fib g).ev = false) :
    Inv { s.upd g (fun f => { f with owner := some (.thr p, true), waiter := .thr p :: f.waiter }) with
      thr := fun q => if q = p then .waiting g else s.thr q } := by
  have hf : flight { s.upd g (fun f => { f with owner := some (.thr p, true), waiter := .thr p :: f.waiter }) with thr := fun q => if q = p then .waiting g else s.thr q } = flight s := rfl
  have hnd := hi.loc.nd
  have hw : (s.fib g).waiter = [] := by rcases hi.jn.wtr g with h | ⟨w, h1, h2, h3⟩; exact h; rw [ho] at h2; cases h2
  have hnd' : ¬ done (s.fib g).st := by intro h; have := hi.jn.evo g _ h ho; rw [he] at this; cases this
  inv_tac hi hf hnd

/-- the object after a reference was dropped -/
def drop (f : Fib) : Fib := { f with ref := f.ref - 1, freed := f.ref == 1 }

theorem release_ok {s : St} {g : Nat} (h1 : (s.fib g).freed = false) (h2 : (s.fib g).ref ≠ 0) (h3 : (s.fib g).waiter = []) :
    release s g = .ok (s.upd g drop) := by
  unfold release
  rw [if_neg (by simp [h1, h2])]
  by_cases e : (s.fib g).ref = 1
  · rw [if_pos e, if_pos h3]
    simp only [St.upd]
    congr 2; funext j; split <;> simp_all [drop]
  · rw [if_neg e]
    simp only [St.upd]
    congr 2; funext j; split <;> simp_all [drop]

theorem inv_reapEnd {s : St} {x g : Nat} (hi : Inv s) (hr : s.reaping x = some g) :
    Inv { s.upd g (fun f => drop { f with st := .gone }) with reaping := fun y => if y = x then none else s.reaping y } := by
  have hf : flight { s.upd g (fun f => drop { f with st := .gone }) with reaping := fun y => if y = x then none else s.reaping y } = flight s := rfl
  have hnd := hi.loc.nd
  simp only [drop] at hf ⊢
  have hst := (hi.loc.rpg x g).1 hr
  inv_tac hi hf hnd

theorem inv_joinEnd {s : St} {c g : Nat} (hi : Inv s) (hr : (s.fib c).st = .joined g) (ho : (s.fib g).own = none) :
    Inv ((s.upd c (fun f => { f with st := .run })).upd g (fun f => drop { f with owner := none })) := by
  have hf : flight ((s.upd c (fun f => { f with st := .run })).upd g (fun f => drop { f with owner := none })) = flight s := rfl
  have hnd := hi.loc.nd
  simp only [drop] at hf ⊢
  have hd := hi.jn.jnd g c hr
  have hw := (hi.jn.ofj g c).2 (.inr hr)
  inv_tac hi hf hnd

theorem inv_joinEndK {s : St} {c g k : Nat} (hi : Inv s) (hr : (s.fib c).st = .joined g) (ho : (s.fib g).own = some k) :
    Inv (((s.upd c (fun f => { f with st := .run })).upd g (fun f => drop { f with owner := none })).log [.returned k (s.fib g).retval]) := by
  have hf : flight (((s.upd c (fun f => { f with st := .run })).upd g (fun f => drop { f with owner := none })).log [.returned k (s.fib g).retval]) = flight s := rfl
  have hnd := hi.loc.nd
  simp only [drop] at hf ⊢
  have hd := hi.jn.jnd g c hr
  have hw := (hi.jn.ofj g c).2 (.inr hr)
  have hcf := hi.jn.cnf g c true hw
  have hne : c ≠ g := by rintro rfl; rw [hr] at hd; exact hd
  have hov' : over (s.fib g).st := by revert hd; cases (s.fib g).st <;> simp [done, over]
  have h2 := (hi.hs.hov g k ho hov').2 (by simp [hw])
  invl_tac hi hf hnd

theorem inv_tJoinEnd {s : St} {p g : Nat} (hi : Inv s) (hr : s.thr p = .woken g) (ho : (s.fib g).own = none) :
    Inv { s.upd g (fun f => drop { f with owner := none }) with thr := fun q => if q = p then .idle else s.thr q } := by
  have hf : flight { s.upd g (fun f => drop { f with owner := none }) with thr := fun q => if q = p then .idle else s.thr q } = flight s := rfl
  have hnd := hi.loc.nd
  simp only [drop] at hf ⊢
  have hd := hi.jn.twk g p hr
  have hw := (hi.jn.oft g p).2 (.inr hr)
  inv_tac hi hf hnd

theorem inv_tJoinEndK {s : St} {p g k : Nat} (hi : Inv s) (hr : s.thr p = .woken g) (ho : (s.fib g).own = some k) :
    Inv { s.upd g (fun f => drop { f with owner := none }) with
      thr := fun q => if q = p then .idle else s.thr q, hist := s.hist ++ [.returned k (s.fib g).retval] } := by
  have hf : flight { s.upd g (fun f => drop { f with owner := none }) with thr := fun q => if q = p then .idle else s.thr q, hist := s.hist ++ [.returned k (s.fib g).retval] } = flight s := rfl
  have hnd := hi.loc.nd
  simp only [drop] at hf ⊢
  have hd := hi.jn.twk g p hr
  have hw := (hi.jn.oft g p).2 (.inr hr)
  have hcf := hi.jn.cnt g p true hw
  have hov' : over (s.fib g).st := by revert hd; cases (s.fib g).st <;> simp [done, over]
  have h2 := (hi.hs.hov g k ho hov').2 (by simp [hw])
  invl_tac hi hf hnd

end Kasync.Remote
