import Verif.FNet.Spec

/-!
# Calls of fibers: addresses (C63)
-/

namespace Kasync.FNet

/-- counts of addresses, part of the invariant -/
structure InvA (s : St) : Prop where
  counted : Counted s
  lt : ∀ a, s.refs a ≠ 0 → a < s.nextAddr
  freed : ∀ a, s.log.count (.addrFreed a) = if a < s.nextAddr ∧ s.refs a = 0 then 1 else 0

theorem invA_init : InvA init := by
  constructor <;> simp [init, Counted]

theorem upd_apply {α : Type} (g : Nat → α) (i : Nat) (v : α) (j : Nat) : upd g i v j = if j = i then v else g j := rfl

/-- the parts of the state the addresses depend on -/
theorem InvA.congr {s t : St} (h : InvA s) (hr : t.refs = s.refs) (hn : t.nextAddr = s.nextAddr) (hc : t.cache = s.cache) (hq : t.queue = s.queue)
    (hh : t.held = s.held) (hl : ∀ a, t.log.count (.addrFreed a) = s.log.count (.addrFreed a)) : InvA t := by
  refine ⟨fun a => ?_, fun a => ?_, fun a => ?_⟩
  · rw [hr, hc, hq, hh]; exact h.counted a
  · rw [hr, hn]; exact h.lt a
  · rw [hr, hn, hl]; exact h.freed a

theorem count_cons_of {l : List Ev} {e : Ev} {a : Nat} (h : e ≠ .addrFreed a) : (e :: l).count (.addrFreed a) = l.count (.addrFreed a) := by
  rw [List.count_cons_of_ne h]

theorem count_pos_of_mem {l : List Nat} {a : Nat} (h : a ∈ l) : 0 < l.count a := List.count_pos_iff.mpr h

theorem count_filterMap_erase {q : List (Nat × Option Nat)} {x : Nat × Option Nat} (h : x ∈ q) (a : Nat) :
    ((q.erase x).filterMap Prod.snd).count a + (if x.2 = some a then 1 else 0) = (q.filterMap Prod.snd).count a := by
  induction q with
  | nil => simp at h
  | cons y q ih =>
    by_cases e : y = x
    · subst e
      rw [List.erase_cons_head]
      obtain ⟨f, o⟩ := y
      cases o <;> simp [List.filterMap_cons, List.count_cons]
    · rw [List.erase_cons_tail (by simpa using e)]
      have hm : x ∈ q := by
        rcases List.mem_cons.mp h with h | h
        · exact absurd h.symm e
        · exact h
      have := ih hm
      obtain ⟨f, o⟩ := y
      cases o with
      | none => simpa [List.filterMap_cons] using this
      | some b => simp only [List.filterMap_cons, List.count_cons]; omega

/-! ## Steps that do not touch addresses -/

/-- nothing about addresses changed -/
structure SameA (s t : St) : Prop where
  refs : t.refs = s.refs
  next : t.nextAddr = s.nextAddr
  cache : t.cache = s.cache
  queue : t.queue = s.queue
  held : t.held = s.held
  log : ∀ a, t.log.count (.addrFreed a) = s.log.count (.addrFreed a)

theorem SameA.inv {s t : St} (e : SameA s t) (h : InvA s) : InvA t := h.congr e.refs e.next e.cache e.queue e.held e.log

theorem fdClose_sameA {s t : St} {fd : Nat} (h : fdClose s fd = .ok t) : SameA s t := by
  unfold fdClose at h
  split at h
  · cases h; constructor <;> simp [St.ev, List.count_cons]
  · cases h

theorem SameA.trans {s t u : St} (a : SameA s t) (b : SameA t u) : SameA s u := by
  constructor
  · rw [b.refs, a.refs]
  · rw [b.next, a.next]
  · rw [b.cache, a.cache]
  · rw [b.queue, a.queue]
  · rw [b.held, a.held]
  · intro x; rw [b.log, a.log]

theorem realDestroy_sameA {s t : St} {c : Nat} (h : realDestroy s c = .ok t) : SameA s t := by
  unfold realDestroy at h
  split at h
  · cases h
  · split at h
    · cases h; constructor <;> simp [St.ev, St.setConn, List.count_cons]
    · split at h
      · next s1 hf =>
        cases h
        exact (fdClose_sameA hf).trans (by constructor <;> simp [St.ev, St.setConn, List.count_cons])
      · next hne => exact (hne _ h).elim

theorem afterShutdown_sameA {s t : St} {f c : Nat} {k : Then} (h : afterShutdown s f c k = .ok t) : SameA s t := by
  unfold afterShutdown at h
  split at h
  · cases h; constructor <;> simp [St.ret, St.wait, St.ev, List.count_cons]
  · cases h; constructor <;> simp [St.ret, St.wait, St.ev, List.count_cons]
  · split at h
    · next s1 hf =>
      cases h
      exact (realDestroy_sameA hf).trans (by constructor <;> simp [St.ret, St.wait, St.ev, List.count_cons])
    · next hne => exact (hne _ h).elim

theorem setShutdown_sameA (s : St) (c : Nat) : SameA s (setShutdown s c) := by
  unfold setShutdown
  split
  · split
    · constructor <;> simp [St.setConn]
    · constructor <;> simp
  · constructor <;> simp

theorem ev_sameA (s : St) (e : Ev) (h : ∀ a, e ≠ .addrFreed a) : SameA s (s.ev e) := by
  constructor <;> simp [St.ev]
  intro a; exact List.count_cons_of_ne (h a)

theorem shutdownCall_sameA {s t : St} {f c : Nat} {k : Then} {o : Out} (h : shutdownCall s f c k o = .ok t) : SameA s t := by
  unfold shutdownCall at h
  simp only at h
  split at h
  · cases h; constructor <;> simp [St.wait, St.ev, List.count_cons]
  · exact ((ev_sameA s _ (by simp)).trans (setShutdown_sameA _ _)).trans (afterShutdown_sameA h)

theorem sslShutdown_sameA {s t : St} {f c : Nat} {k : Conn} {m : Then} {o : Out} (h : sslShutdown s f c k m o = .ok t) : SameA s t := by
  unfold sslShutdown at h
  split at h
  · exact afterShutdown_sameA h
  · split at h
    · split at h
      · exact shutdownCall_sameA h
      · exact (setShutdown_sameA _ _).trans (afterShutdown_sameA h)
    · exact afterShutdown_sameA h

theorem handshakeCall_sameA {s t : St} {f c : Nat} {o : Out} (h : handshakeCall s f c o = .ok t) : SameA s t := by
  unfold handshakeCall at h
  simp only at h
  split at h <;> cases h <;> constructor <;> simp [St.ret, St.wait, St.ev, List.count_cons]

/-- a step that is not about addresses -/
def Op.other : Op → Bool
  | .getaddr .. | .release _ | .answer .. | .deliver .. | .cacheNew | .cacheDrop _ => false
  | _ => true

theorem step_sameA {s t : St} {o : Op} (ho : o.other = true) (h : step s o = .ok t) : SameA s t := by
  cases o <;> simp only [Op.other, Bool.false_eq_true] at ho <;> simp only [step] at h
  case connNew => cases h; constructor <;> simp [FNet.connNew]
  case connect f c half go =>
    split at h
    · split at h
      · unfold FNet.connect at h
        simp only at h
        split at h
        · split at h <;> cases h <;> constructor <;> simp [St.ret, St.wait, St.ev, St.setConn, fdOpen, List.count_cons]
        · cases h; constructor <;> simp [St.ret, St.wait, St.ev, St.setConn, List.count_cons]
      · cases h
    · cases h
  case sslConnect c ok =>
    split at h
    · split at h
      · cases h
        unfold FNet.sslConnect
        split <;> constructor <;> simp [St.setConn]
      · cases h
    · cases h
  case accept f tls go =>
    split at h
    · split at h <;> cases h <;> constructor <;> simp [St.ret, St.wait, St.ev, List.count_cons]
    · cases h
  case handshake f c o =>
    split at h
    · split at h
      · unfold FNet.handshake at h
        split at h
        · cases h
        · exact SameA.trans (by constructor <;> simp [St.ev, St.setConn, List.count_cons]) (handshakeCall_sameA h)
      · cases h
    · cases h
  case sslShutdown f c o =>
    split at h
    · split at h
      · exact (ev_sameA s _ (by simp)).trans (sslShutdown_sameA h)
      · cases h
    · cases h
  case netShutdown f c o =>
    split at h
    · split at h
      · exact (ev_sameA s _ (by simp)).trans (sslShutdown_sameA h)
      · cases h
    · cases h
  case close f c o =>
    split at h
    · split at h
      · exact (ev_sameA s _ (by simp)).trans (sslShutdown_sameA h)
      · cases h
    · cases h
  case fileOpen ok sel =>
    unfold FNet.fileOpen at h
    simp only at h
    split at h
    · split at h
      · cases h; constructor <;> simp [St.ev, fdOpen, List.count_cons]
      · exact SameA.trans (by constructor <;> simp [St.ev, fdOpen, List.count_cons]) (fdClose_sameA h)
    · cases h; constructor <;> simp
  case fileClose i =>
    split at h
    · unfold FNet.fileClose at h
      split at h
      · next s1 hf => cases h; exact (fdClose_sameA hf).trans (by constructor <;> simp)
      · next hne => exact (hne _ h).elim
    · cases h
  case connected f got =>
    split at h
    · split at h
      · cases h; constructor <;> simp [St.ret, St.wait, St.ev, List.count_cons]
      · cases h
    · cases h
  case acceptEv f got sslOk =>
    split at h
    · unfold accepted at h
      simp only at h
      split at h
      · split at h
        · split at h
          · cases h; constructor <;> simp [St.ret, St.wait, St.ev, St.setConn, fdOpen, FNet.connNew, List.count_cons]
          · split at h
            · next s1 hf =>
              cases h
              refine SameA.trans ?_ ((realDestroy_sameA hf).trans ?_)
              · constructor <;> simp [St.ev, St.setConn, fdOpen, FNet.connNew, List.count_cons]
              · constructor <;> simp [St.ret, St.wait, St.ev, List.count_cons]
            · next hne => exact (hne _ h).elim
        · cases h; constructor <;> simp [St.ret, St.wait, St.ev, St.setConn, fdOpen, FNet.connNew, List.count_cons]
      · cases h; constructor <;> simp [St.ret, St.wait, St.ev, List.count_cons]
    · cases h
  case sslEv f got o =>
    split at h
    · split at h
      · unfold handshakeEvent at h
        simp only at h
        split at h
        · cases h; constructor <;> simp [St.ret, St.wait, St.ev, List.count_cons]
        · exact (ev_sameA s _ (by simp)).trans (handshakeCall_sameA h)
      · unfold shutdownEvent at h
        simp only at h
        split at h
        · exact ((ev_sameA s _ (by simp)).trans (setShutdown_sameA _ _)).trans (afterShutdown_sameA h)
        · exact (ev_sameA s _ (by simp)).trans (shutdownCall_sameA h)
      · cases h
    · cases h
  case setErr c =>
    split at h
    · cases h; constructor <;> simp [St.setConn]
    · cases h

/-! ## Steps about addresses -/

theorem getaddr_invA {s t : St} {f : Nat} {l : Look} (h : InvA s) (hs : getaddr s f l = .ok t) : InvA t := by
  have h1 := h.counted; have h2 := h.lt; have h3 := h.freed
  unfold Counted at h1
  cases l with
  | numeric =>
    simp only [getaddr] at hs
    cases hs
    have h0 := h1 s.nextAddr
    have hz : s.refs s.nextAddr = 0 := by
      have := h2 s.nextAddr; omega
    constructor <;> simp only [Counted, addrNew, St.ret, St.wait, St.ev, upd_apply, List.count_cons, reduceCtorEq, beq_iff_eq] <;> grind
  | cached a =>
    simp only [getaddr] at hs
    split at hs
    · next hm =>
      have hz : 0 < s.refs a := by have := h1 a; have := count_pos_of_mem hm; omega
      have hz' : s.refs a ≠ 0 := by omega
      simp only [addrRefs, St.ev, hz', if_false, getaddrCallback, upd_apply, if_true, Nat.add_eq_zero_iff, false_and, and_false, addrRelease, St.ret, St.wait,
        Nat.succ_ne_zero, reduceCtorEq] at hs
      split at hs
      · omega
      · cases hs
        constructor <;> simp only [Counted, upd_apply, List.count_cons, reduceCtorEq, beq_iff_eq] <;> grind
    · cases hs
  | negative =>
    simp only [getaddr, getaddrCallback] at hs
    cases hs
    exact SameA.inv (s := s) (by constructor <;> simp [St.ret, St.wait, St.ev, List.count_cons]) h
  | queued =>
    simp only [getaddr] at hs
    cases hs
    exact SameA.inv (s := s) (by constructor <;> simp [St.wait]) h

theorem release_invA {s t : St} {a : Nat} (h2 : ∀ a, s.refs a ≠ 0 → a < s.nextAddr)
    (h3 : ∀ a, s.log.count (.addrFreed a) = if a < s.nextAddr ∧ s.refs a = 0 then 1 else 0)
    (h1 : ∀ b, s.refs b = s.cache.count b + (s.queue.filterMap Prod.snd).count b + s.held.count b + if b = a then 1 else 0)
    (hs : addrRelease s a = .ok t) : InvA t := by
  unfold addrRelease at hs
  have := h1 a
  split at hs
  · cases hs
  · split at hs <;> cases hs <;> constructor <;> simp only [Counted, St.ev, upd_apply, List.count_cons, beq_iff_eq] <;> grind

theorem count_erase_add {l : List Nat} {a : Nat} (h : a ∈ l) (b : Nat) : (l.erase a).count b + (if b = a then 1 else 0) = l.count b := by
  have := count_pos_of_mem h
  rw [List.count_erase]
  by_cases e : b = a
  · subst e; simp; omega
  · simp [e, Ne.symm e]

theorem step_invA {s t : St} {o : Op} (h : InvA s) (hs : step s o = .ok t) : InvA t := by
  by_cases ho : o.other = true
  · exact (step_sameA ho hs).inv h
  have h1 := h.counted; have h2 := h.lt; have h3 := h.freed
  unfold Counted at h1
  cases o <;> simp only [Op.other, not_true_eq_false] at ho <;> simp only [step] at hs
  case getaddr f l =>
    split at hs
    · exact getaddr_invA ((ev_sameA s _ (by simp)).inv h) hs
    · cases hs
  case release a =>
    split at hs
    · next hm =>
      refine release_invA ?_ ?_ ?_ hs
      · exact h2
      · exact h3
      · intro b
        have := count_erase_add hm b
        have := h1 b
        simp only; omega
    · cases hs
  case cacheDrop a =>
    split at hs
    · next hm =>
      refine release_invA ?_ ?_ ?_ hs
      · exact h2
      · exact h3
      · intro b
        have := count_erase_add hm b
        have := h1 b
        simp only; omega
    · cases hs
  case cacheNew =>
    cases hs
    have hz : s.refs s.nextAddr = 0 := by
      have := h2 s.nextAddr; omega
    have h0 := h1 s.nextAddr
    constructor <;> simp only [Counted, addrNew, upd_apply, List.count_cons, beq_iff_eq] <;> grind
  case answer f x =>
    split at hs
    · next hc =>
      unfold FNet.answer at hs
      split at hs
      · cases hs
        constructor <;> simp only [Counted, St.ev, List.count_cons, reduceCtorEq, beq_iff_eq, List.filterMap_append, List.filterMap_cons, List.filterMap_nil,
          List.append_nil] <;> grind
      · next a =>
        unfold addrRefs at hs
        split at hs
        · next s1 hr =>
          split at hr
          · cases hr
          · cases hr
            cases hs
            constructor <;> simp only [Counted, St.ev, upd_apply, List.count_cons, reduceCtorEq, beq_iff_eq, List.filterMap_append, List.filterMap_cons,
              List.filterMap_nil, List.count_append, List.count_nil] <;> grind
        · next hne => exact (hne _ hs).elim
    · cases hs
  case deliver f x =>
    split at hs
    · next hm =>
      have he := fun b => count_filterMap_erase hm b
      unfold FNet.deliver at hs
      cases x with
      | none =>
        simp only [getaddrCallback] at hs
        cases hs
        simp only [reduceCtorEq, if_false, Nat.add_zero] at he
        constructor <;> simp only [Counted, St.ret, St.wait, St.ev, List.count_cons, reduceCtorEq, beq_iff_eq, he] <;> grind
      | some a =>
        simp only [getaddrCallback, addrRefs] at hs
        have hz := he a
        have hz2 := h1 a
        simp only [if_true] at hz
        have hz' : s.refs a ≠ 0 := by omega
        simp only [hz', if_false] at hs
        refine release_invA ?_ ?_ ?_ hs
        · simp only [St.ret, St.wait, St.ev, upd_apply]; grind
        · simp only [St.ret, St.wait, St.ev, upd_apply, List.count_cons, reduceCtorEq, beq_iff_eq]; grind
        · intro b
          have := he b
          have := h1 b
          simp only [St.ret, St.wait, St.ev, upd_apply, List.count_cons, beq_iff_eq, Option.some.injEq] at *
          grind
    · cases hs

end Kasync.FNet
