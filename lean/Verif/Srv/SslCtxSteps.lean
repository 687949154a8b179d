import Verif.Srv.SslCtxInv

/-! Every disciplined step of `Srv/SslCtx` keeps the invariant and is defined. -/

namespace Kasync.SslCtx

theorem Shape.lockedNo {s : St} (h : locked s = false) : ∀ c rest, s.set ≠ .visit c rest := by
  intro c rest he; simp [locked, he] at h

/-- `Shape` does not read the tables of counts and the results of bind. -/
theorem Shape.same {s : St} (h : Shape s) (r sr f sf e : Nat → Nat) (b : List Bool) (x : Bool) :
    Shape { s with refs := r, sslRefs := sr, freed := f, sslFreed := sf, ext := e, binds := b, ssl := x } := by
  obtain ⟨h1, h2, h3, h4, h5, h6, h7, h8, h9, h10, h11, h12, h13, h14, h15, h16, h17⟩ := h
  exact ⟨h1, h2, h3, h4, h5, h6, h7, h8, h9, h10, h11, h12, h13, h14, h15, h16, h17⟩

/-- release of a reference on the server -/
theorem srvRelease_good {s : St} {K : Nat → Nat} {r0 : Nat}
    (hc : Core s.next s.refs s.sslRefs s.freed s.sslFreed (holders s) (users s))
    (hr : s.srvRefs = r0 + 1) (hf : s.srvFreed = 0) (hl : r0 = 0 → s.lst = []) (hset : r0 = 0 → s.set = .idle)
    (hsh : ∀ r sr f sf, Shape { s with refs := r, sslRefs := sr, freed := f, sslFreed := sf, srvRefs := r0, srvFreed := ind (r0 = 0) }) :
    ∃ s', srvRelease s = .ok s' ∧ Inv s' := by
  unfold srvRelease
  rw [if_neg (by omega)]
  by_cases h1 : s.srvRefs = 1
  · have h0 : r0 = 0 := by omega
    subst h0
    rw [if_pos h1, if_neg (by simp [hl rfl])]
    have hs := hset rfl
    have hcc : Core s.next s.refs s.sslRefs s.freed s.sslFreed
        (plusO (holders { s with srvRefs := 0, srvFreed := 1 }) s.sctx) (users s) := by
      refine hc.congr (fun c => ?_) (fun _ => rfl)
      simp only [holders, srvHold, plusO, hs, liveHold, postHold, ind, hf]
      grind
    obtain ⟨r, sr, f, sf, he, hc'⟩ := releaseOpt_core (s := { s with srvRefs := 0, srvFreed := 1 }) hcc
    rw [he]
    exact ⟨_, rfl, hc', hsh r sr f sf⟩
  · rw [if_neg h1]
    have h0 : r0 ≠ 0 := by omega
    refine ⟨_, rfl, hc, ?_⟩
    have := hsh s.refs s.sslRefs s.freed s.sslFreed
    simp only [ind, if_neg h0] at this
    rw [← hf] at this
    have h2 : s.srvRefs - 1 = r0 := by omega
    rw [h2]
    exact this

theorem newCtx_good {s : St} (h : Inv s) : Good s (step s .newCtx) := by
  refine Or.inr ⟨_, rfl, ?_, ?_⟩
  · obtain ⟨h1, h2, h3, h4, h5⟩ := h.core
    have hn := h5 s.next (Nat.le_refl _)
    have hc : Core (s.next + 1) (upd s.refs s.next 1) (upd s.sslRefs s.next 1) s.freed s.sslFreed (upd (holders s) s.next 1) (users s) := by
      have hx := h2 s.next
      constructor <;> intro d
      all_goals have a1 := h1 d; have a2 := h2 d; have a3 := h3 d; have a4 := h4 d; have a5 := h5 d
      all_goals simp only [ind] at a1 a2 a3 a4 a5 hx
      all_goals simp only [upd, ind]
      all_goals clear h1 h2 h3 h4 h5
      all_goals by_cases hd : d = s.next
      all_goals grind
    refine hc.congr (fun d => ?_) (fun _ => rfl)
    have : s.ext s.next = 0 ∧ srvHold s s.next = 0 ∧ liveHold s s.next = 0 ∧ postHold s s.next = 0 := by
      have := hn.1; simp only [holders] at this; omega
    by_cases hd : d = s.next
    · subst hd
      rw [upd_same]
      show 1 = upd s.ext s.next 1 s.next + srvHold s s.next + liveHold s s.next + postHold s s.next
      rw [upd_same]; omega
    · rw [upd_ne _ _ hd]
      show _ = upd s.ext s.next 1 d + srvHold s d + liveHold s d + postHold s d
      rw [upd_ne _ _ hd]; rfl
  · obtain ⟨h1, h2, h3, h4, h5, h6, h7, h8, h9, h10, h11, h12, h13, h14, h15, h16, h17⟩ := h.shape
    exact ⟨h1, h2, h3, h4, h5, h6, h7, h8, h9, h10, h11, h12, h13, h14, h15, h16, h17⟩

theorem extRef_good {s : St} (h : Inv s) (c : Nat) : Good s (step s (.extRef c)) := by
  simp only [step]
  split
  · rename_i hx
    obtain ⟨r, he, hc⟩ := addRefOpt_core (p := some c) h.core (by intro d hd; cases hd; simp only [holders]; omega)
    rw [he]
    refine Or.inr ⟨_, rfl, ?_, h.shape.same _ _ _ _ _ _ _⟩
    refine hc.congr (fun d => ?_) (fun _ => rfl)
    simp only [holders, srvHold, liveHold, postHold, plusO, ind, upd]
    grind
  · exact Or.inl rfl

theorem extRelease_good {s : St} (h : Inv s) (c : Nat) : Good s (step s (.extRelease c)) := by
  simp only [step]
  split
  · rename_i hx
    have hcc : Core s.next s.refs s.sslRefs s.freed s.sslFreed
        (plus (holders { s with ext := upd s.ext c (s.ext c - 1) }) c) (users s) := by
      refine h.core.congr (fun d => ?_) (fun _ => rfl)
      simp only [holders, srvHold, liveHold, postHold, plus, ind, upd]
      grind
    obtain ⟨r, sr, f, sf, he, hc'⟩ := release_core (s := { s with ext := upd s.ext c (s.ext c - 1) }) hcc
    rw [he]
    exact Or.inr ⟨_, rfl, hc', h.shape.same _ _ _ _ _ _ _⟩
  · exact Or.inl rfl

theorem ownRef_good {s : St} (h : Inv s) : Good s (step s .ownRef) := by
  simp only [step]
  split
  · rename_i hx
    rw [touch_ok (srv_alive h.shape (Or.inl (owners_pos hx)))]
    refine Or.inr ⟨_, rfl, h.core, ?_⟩
    have h0 := srv_alive h.shape (Or.inl (owners_pos hx))
    obtain ⟨h1, h2, h3, h4, h5, h6, h7, h8, h9, h10, h11, h12, h13, h14, h15, h16, h17⟩ := h.shape
    refine ⟨?_, ?_, ?_, h4, h5, h6, h7, h8, h9, h10, h11, h12, h13, h14, h15, h16, h17⟩
    · dsimp only; omega
    · dsimp only; simp [ind, h0]
    · simp only [calls] at *; omega
  · exact Or.inl rfl

theorem lst_nil_of_lrefs {s : St} (h : Shape s) (hl : s.lrefs = []) : s.lst = [] := by
  apply List.eq_nil_iff_forall_not_mem.2
  intro i hi
  have h1 := (h.mL i).1 hi
  have h2 := h.mR i
  rw [hl] at h2
  grind

theorem ownRelease_good {s : St} (h : Inv s) : Good s (step s .ownRelease) := by
  simp only [step]
  split
  · rename_i hx
    refine Or.inr (srvRelease_good (r0 := s.srvRefs - 1) (K := fun _ => 0) h.core ?_ ?_ ?_ ?_ ?_)
    · have := h.shape.srv; dsimp only; omega
    · show s.srvFreed = 0
      exact srv_alive h.shape (Or.inl (owners_pos hx))
    · intro h0
      have := h.shape.srv
      show s.lst = []
      exact lst_nil_of_lrefs h.shape (List.eq_nil_of_length_eq_zero (by omega))
    · intro h0
      have := h.shape.srv
      dsimp only
      simp only [calls] at hx
      split at hx
      · assumption
      · omega
    · intro r sr f sf
      obtain ⟨h1, h2, h3, h4, h5, h6, h7, h8, h9, h10, h11, h12, h13, h14, h15, h16, h17⟩ := h.shape
      refine ⟨?_, ?_, ?_, h4, h5, h6, h7, h8, h9, h10, h11, h12, h13, h14, h15, h16, h17⟩
      · dsimp only; omega
      · rfl
      · simp only [calls] at *; omega
  · exact Or.inl rfl

/-- `kserver_set_ssl_ctx` up to the release of the old context, with one more reference on `c` in hand -/
theorem setEntry_good {s : St} {c : Option Nat} (hc : Core s.next s.refs s.sslRefs s.freed s.sslFreed (plusO (holders s) c) (users s))
    (hs : Shape s) (hl : s.lis = .idle) (hi : s.set = .idle) (ho : s.owners > 0) (hf : s.srvFreed = 0) :
    ∃ s', setEntry s c = .ok s' ∧ Inv s' := by
  unfold setEntry
  by_cases h : s.sctx.isSome ∧ c = none
  · rw [if_pos h]
    refine ⟨_, rfl, ?_, hs⟩
    rw [h.2, plusO_none] at hc
    exact hc
  · rw [if_neg h]
    have hcc : Core s.next s.refs s.sslRefs s.freed s.sslFreed (plusO (holders { s with set := .assign c }) s.sctx) (users s) := by
      refine hc.congr (fun d => ?_) (fun _ => rfl)
      simp only [holders, srvHold, liveHold, postHold, plusO, ind, hi, hf]
      grind
    obtain ⟨r, sr, f, sf, he, hc'⟩ := releaseOpt_core hcc
    rw [he]
    refine ⟨_, rfl, hc', ?_⟩
    obtain ⟨h1, h2, h3, h4, h5, h6, h7, h8, h9, h10, h11, h12, h13, h14, h15, h16, h17⟩ := hs
    refine ⟨h1, h2, ?_, h4, h5, h6, h7, h8, h9, h10, h11, h12, ?_, h14, ?_, ?_, h17⟩
    · simp [calls, hl]; omega
    · exact Or.inr hl
    · intro c he; cases he
    · intro c rest he; cases he

theorem handOver_core {s : St} {c : Option Nat} (h : Inv s) (hg : mayGive s c = true) :
    Core s.next s.refs s.sslRefs s.freed s.sslFreed (plusO (holders (handOver s c)) c) (users s) := by
  cases c with
  | none => rw [plusO_none]; exact h.core
  | some c =>
    refine h.core.congr (fun d => ?_) (fun _ => rfl)
    simp only [mayGive, decide_eq_true_eq] at hg
    simp only [handOver, holders, srvHold, liveHold, postHold, plusO, ind, upd]
    grind

theorem handOver_eq (s : St) (c : Option Nat) : ∃ e, handOver s c = { s with ext := e } := by
  cases c with
  | none => exact ⟨s.ext, rfl⟩
  | some c => exact ⟨_, rfl⟩

theorem setBegin_good {s : St} (h : Inv s) (c : Option Nat) (hd : Disc s (.setBegin c)) : Good s (step s (.setBegin c)) := by
  simp only [step]
  split
  · rename_i hx
    obtain ⟨ho, hi, hg⟩ := hx
    have h0 := srv_alive h.shape (Or.inl (owners_pos ho))
    rw [touch_ok h0]
    have hc := handOver_core h hg
    obtain ⟨e, he⟩ := handOver_eq s c
    rw [he] at hc ⊢
    exact Or.inr (setEntry_good (s := { s with ext := e }) hc (h.shape.same _ _ _ _ _ _ _) hd hi (owners_pos ho) h0)
  · exact Or.inl rfl

theorem bindBegin_good {s : St} (h : Inv s) (c : Option Nat) (a : Bool) (hd : Disc s (.bindBegin c a)) :
    Good s (step s (.bindBegin c a)) := by
  simp only [step]
  split
  · rename_i hx
    obtain ⟨ho, hi, hg⟩ := hx
    have h0 := srv_alive h.shape (Or.inl (owners_pos ho))
    rw [touch_ok h0]
    have hc := handOver_core h hg
    obtain ⟨e, he⟩ := handOver_eq s c
    rw [he] at hc ⊢
    split
    · exact Or.inr ⟨_, rfl, h.core, h.shape.same _ _ _ _ _ _ _⟩
    · split
      · obtain ⟨r, sr, f, sf, he, hc'⟩ := releaseOpt_core (s := { s with ext := e, ssl := s.ssl || c.isSome }) hc
        rw [he]
        exact Or.inr ⟨_, rfl, hc', h.shape.same _ _ _ _ _ _ _⟩
      · obtain ⟨s', h1, h2⟩ := setEntry_good (s := { s with ext := e, ssl := s.ssl || c.isSome }) hc (h.shape.same _ _ _ _ _ _ _) hd hi
          (owners_pos ho) h0
        rw [h1]
        exact Or.inr ⟨_, rfl, h2.core, h2.shape.same _ _ _ _ _ _ _⟩
  · exact Or.inl rfl

theorem owner_of_set {s : St} (h : Shape s) (hi : s.set ≠ .idle) : s.owners > 0 := by
  have := h.own; simp only [calls, if_neg hi] at this; omega

theorem owner_of_lis {s : St} (h : Shape s) (hi : s.lis ≠ .idle) : s.owners > 0 := by
  have := h.own; simp only [calls, if_neg hi] at this; omega

theorem setAssign_good {s : St} (h : Inv s) : Good s (step s .setAssign) := by
  simp only [step]
  split
  · rename_i c hs
    have h0 := srv_alive h.shape (Or.inl (owner_of_set h.shape (by simp [hs])))
    rw [touch_ok h0]
    refine Or.inr ⟨_, rfl, ?_, ?_⟩
    · refine h.core.congr (fun d => ?_) (fun _ => rfl)
      simp [holders, srvHold, liveHold, postHold, hs, h0]
    · have hl : s.lis = .idle := by have := h.shape.excl; simpa [hs] using this
      obtain ⟨h1, h2, h3, h4, h5, h6, h7, h8, h9, h10, h11, h12, h13, h14, h15, h16, h17⟩ := h.shape
      refine ⟨h1, h2, ?_, h4, h5, h6, h7, h8, h9, h10, h11, ?_, ?_, h14, ?_, ?_, h17⟩
      · simp only [calls, hs] at *; simpa using h3
      · intro i p he; rw [hl] at he; cases he
      · exact Or.inr hl
      · intro c he; cases he; rfl
      · intro c rest he; cases he
  · exact Or.inl rfl

theorem setLock_good {s : St} (h : Inv s) : Good s (step s .setLock) := by
  simp only [step]
  split
  · rename_i c hs
    have h0 := srv_alive h.shape (Or.inl (owner_of_set h.shape (by simp [hs])))
    rw [touch_ok h0]
    refine Or.inr ⟨_, rfl, ?_, ?_⟩
    · refine h.core.congr (fun d => ?_) (fun _ => rfl)
      simp [holders, srvHold, liveHold, postHold, hs, h0]
    · have hl : s.lis = .idle := by have := h.shape.excl; simpa [hs] using this
      obtain ⟨h1, h2, h3, h4, h5, h6, h7, h8, h9, h10, h11, h12, h13, h14, h15, h16, h17⟩ := h.shape
      refine ⟨h1, h2, ?_, h4, h5, h6, h7, h8, h9, h10, h11, h12, ?_, h14, ?_, ?_, h17⟩
      · simp only [calls, hs] at *; simpa using h3
      · exact Or.inr hl
      · intro c he; cases he
      · intro c' rest he; cases he; exact ⟨h15 c hs, fun i hi => hi⟩
  · exact Or.inl rfl

theorem setEnd_good {s : St} (h : Inv s) : Good s (step s .setEnd) := by
  simp only [step]
  split
  · rename_i c hs
    have h0 := srv_alive h.shape (Or.inl (owner_of_set h.shape (by simp [hs])))
    rw [touch_ok h0]
    refine Or.inr ⟨_, rfl, ?_, ?_⟩
    · refine h.core.congr (fun d => ?_) (fun _ => rfl)
      simp [holders, srvHold, liveHold, postHold, hs, h0]
    · have hl : s.lis = .idle := by have := h.shape.excl; simpa [hs] using this
      obtain ⟨h1, h2, h3, h4, h5, h6, h7, h8, h9, h10, h11, h12, h13, h14, h15, h16, h17⟩ := h.shape
      refine ⟨h1, h2, ?_, h4, h5, h6, h7, h8, h9, h10, h11, h12, ?_, h14, ?_, ?_, h17⟩
      · simp only [calls, hl]; simp
      · exact Or.inl rfl
      · intro c he; cases he
      · intro c' rest he; cases he
  · exact Or.inl rfl

theorem mem_live_of_lst {s : St} (h : Shape s) {i : Nat} (hi : i ∈ s.lst) : i ∈ s.live := by
  have h1 := (h.mL i).1 hi
  have h2 := h.mV i
  grind

theorem setVisit_good {s : St} (h : Inv s) (hd : Disc s .setVisit) : Good s (step s .setVisit) := by
  simp only [step]
  split
  · rename_i c i rest hs
    have h0 := srv_alive h.shape (Or.inl (owner_of_set h.shape (by simp [hs])))
    rw [touch_ok h0]
    have hl : s.lis = .idle := by have := h.shape.excl; simpa [hs] using this
    obtain ⟨hsc, hrest⟩ := h.shape.vis _ _ hs
    have hi := hrest i (by simp)
    have hst := (h.shape.mL i).1 hi
    have hlv := mem_live_of_lst h.shape hi
    unfold visitOne
    rw [if_neg (by grind)]
    obtain ⟨r, he, hc⟩ := addRefOpt_core (p := c) h.core (by
      intro d hd; simp [holders, srvHold, hs, h0, hsc, hd, ind]; omega)
    rw [he]
    have hshape : ∀ (r sr f sf : Nat → Nat) (l : Nat → Option Nat) (ps : List (Nat × Option Nat)),
        (∀ j p, s.stage j = .acc p → l j = p) → (∀ e ∈ ps, s.stage e.1 ≠ .gone) →
        Shape { s with refs := r, sslRefs := sr, freed := f, sslFreed := sf, lctx := l, posted := ps, set := .visit c rest } := by
      intro r sr f sf l ps hla hps
      obtain ⟨h1, h2, h3, h4, h5, h6, h7, h8, h9, h10, h11, h12, h13, h14, h15, h16, h17⟩ := h.shape
      refine ⟨h1, h2, ?_, h4, h5, h6, h7, h8, h9, hla, h11, ?_, ?_, h14, ?_, ?_, hps⟩
      · simp only [calls, hs] at *; simpa using h3
      · intro i p he; rw [hl] at he; cases he
      · exact Or.inr hl
      · intro c he; cases he
      · intro c' rest' he; cases he; exact ⟨hsc, fun j hj => hrest j (by simp [hj])⟩
    by_cases hstart : s.start = false
    · dsimp only
      rw [if_pos hstart]
      have hidle : s.stage i = .idle := by
        rcases hd with hd | hd
        · rw [hstart] at hd; cases hd
        · exact hd _ _ _ hs
      have hcc : Core s.next r s.sslRefs s.freed s.sslFreed
          (plusO (holders { s with lctx := upd s.lctx i c, set := .visit c rest }) (s.lctx i)) (users s) := by
        refine hc.congr (fun d => ?_) (fun _ => rfl)
        have := countP_upd h.shape.ndV hlv s.lctx c d
        simp only [holders, srvHold, liveHold, postHold, plusO, hs]
        simp only [ind] at *
        omega
      obtain ⟨r2, sr, f, sf, he2, hc2⟩ := releaseOpt_core (s := { s with refs := r }) hcc
      rw [he2]
      refine Or.inr ⟨_, rfl, hc2, hshape _ _ _ _ _ _ ?_ h.shape.pst⟩
      intro j p hj
      by_cases hji : j = i
      · subst hji; rw [hidle] at hj; cases hj
      · rw [upd_ne _ _ hji]; exact h.shape.acc j p hj
    · dsimp only
      rw [if_neg hstart]
      refine Or.inr ⟨_, rfl, ?_, hshape _ _ _ _ _ _ h.shape.acc ?_⟩
      · refine hc.congr (fun d => ?_) (fun _ => rfl)
        simp only [holders, srvHold, liveHold, postHold, plusO, hs, List.countP_cons, ind, beq_iff_eq]
        omega
      · intro e he
        rcases List.mem_cons.1 he with he | he
        · subst he; dsimp only; grind
        · exact h.shape.pst e he
  · exact Or.inl rfl

theorem lisInit_good {s : St} (h : Inv s) (hd : Disc s .lisInit) : Good s (step s .lisInit) := by
  simp only [step]
  split
  · rename_i hx
    obtain ⟨ho, hl⟩ := hx
    have h0 := srv_alive h.shape (Or.inl (owners_pos ho))
    rw [touch_ok h0]
    have hset : s.set = .idle := hd
    have hg := h.shape.fresh _ (Nat.le_refl _)
    have hnl : s.nextL ∉ s.live := by
      have := h.shape.mV s.nextL; grind
    refine Or.inr ⟨_, rfl, ?_, ?_⟩
    · refine h.core.congr (fun d => ?_) (fun _ => rfl)
      simp only [holders, srvHold, liveHold, postHold, hset, countP_upd_notMem hnl]
    · obtain ⟨h1, h2, h3, h4, h5, h6, h7, h8, h9, h10, h11, h12, h13, h14, h15, h16, h17⟩ := h.shape
      constructor
      case srv => simp; omega
      case frz => simp [ind, h0]
      case own => simp only [calls, hset]; simp; omega
      case ndL => exact h4
      case ndV => exact h5
      case ndR => refine List.nodup_cons.2 ⟨?_, h6⟩; have := h9 s.nextL; grind
      case mL => intro i; have := h7 i; simp only [upd]; grind
      case mV => intro i; have := h8 i; simp only [upd]; grind
      case mR => intro i; have := h9 i; simp only [upd]; grind
      case acc => intro i p; have := h10 i p; simp only [upd]; grind
      case ini =>
        intro i; have := h11 i
        by_cases hi : i = s.nextL
        · subst hi; simp [upd]
        · have hi' : s.nextL ≠ i := fun h => hi h.symm
          simp only [upd_ne _ _ hi, LisPc.ref.injEq]; rw [this, hl]; simp [hi']
      case lref => intro i p he; cases he; exact ⟨upd_same _ _ _, rfl⟩
      case excl => exact Or.inl hset
      case fresh => intro i hi; dsimp only at hi ⊢; rw [upd_ne _ _ (by omega)]; exact h14 i (by omega)
      case lck => exact h15
      case vis => exact h16
      case pst => intro e he; have := h17 e he; simp only [upd]; grind
  · exact Or.inl rfl

theorem lisRef_good {s : St} (h : Inv s) : Good s (step s .lisRef) := by
  simp only [step]
  split
  · rename_i i p hs
    have h0 := srv_alive h.shape (Or.inl (owner_of_lis h.shape (by simp [hs])))
    have hset : s.set = .idle := by have := h.shape.excl; simpa [hs] using this
    obtain ⟨hlc, hps⟩ := h.shape.lref i p hs
    have hst : s.stage i = .init := (h.shape.ini i).2 (Or.inr ⟨p, hs⟩)
    have hnl : i ∉ s.live := by have := h.shape.mV i; grind
    obtain ⟨r, he, hc⟩ := addRefOpt_core (p := p) h.core (by
      intro d hd; simp [holders, srvHold, hset, h0, ← hps, hd, ind]; omega)
    rw [he]
    refine Or.inr ⟨_, rfl, ?_, ?_⟩
    · refine hc.congr (fun d => ?_) (fun _ => rfl)
      simp only [holders, srvHold, liveHold, postHold, hset, plusO, List.countP_cons, hlc, ind, beq_iff_eq]
      omega
    · obtain ⟨h1, h2, h3, h4, h5, h6, h7, h8, h9, h10, h11, h12, h13, h14, h15, h16, h17⟩ := h.shape
      refine ⟨h1, h2, ?_, h4, List.nodup_cons.2 ⟨hnl, h5⟩, h6, h7, ?_, h9, h10, ?_, ?_, Or.inl hset, h14, h15, h16, h17⟩
      · simp only [calls, hs] at *; simpa using h3
      · intro j; have := h8 j; grind
      · intro j; have := h11 j; grind
      · intro j q he; cases he
  · exact Or.inl rfl

theorem lisAppend_good {s : St} (h : Inv s) : Good s (step s .lisAppend) := by
  simp only [step]
  split
  · rename_i i hs
    have h0 := srv_alive h.shape (Or.inl (owner_of_lis h.shape (by simp [hs])))
    have hset : s.set = .idle := by have := h.shape.excl; simpa [hs] using this
    have hst : s.stage i = .init := (h.shape.ini i).2 (Or.inl hs)
    split
    · exact Or.inl rfl
    · rw [touch_ok h0]
      refine Or.inr ⟨_, rfl, ?_, ?_⟩
      · exact h.core
      · obtain ⟨h1, h2, h3, h4, h5, h6, h7, h8, h9, h10, h11, h12, h13, h14, h15, h16, h17⟩ := h.shape
        have hni : i ∉ s.lst := by have := h7 i; grind
        constructor
        case srv => exact h1
        case frz => exact h2
        case own => simp [calls, hset]
        case ndL =>
          refine List.nodup_append.2 ⟨h4, by simp, ?_⟩
          intro a ha b hb; simp only [List.mem_singleton] at hb; subst hb; intro he; subst he; exact hni ha
        case ndV => exact h5
        case ndR => exact h6
        case mL => intro j; have := h7 j; simp only [upd, List.mem_append, List.mem_singleton]; grind
        case mV => intro j; have := h8 j; simp only [upd]; grind
        case mR => intro j; have := h9 j; simp only [upd]; grind
        case acc => intro j p; have := h10 j p; simp only [upd]; grind
        case ini => intro j; have := h11 j; simp only [upd]; grind
        case lref => intro j p he; cases he
        case excl => exact Or.inl hset
        case fresh => intro j hj; have := h14 j hj; simp only [upd]; grind
        case lck => exact h15
        case vis => intro c rest he; rw [hset] at he; cases he
        case pst => intro e he; have := h17 e he; simp only [upd]; grind
  · exact Or.inl rfl

theorem start_good {s : St} (h : Inv s) (b : Bool) : Inv { s with start := b } := by
  refine ⟨h.core, ?_⟩
  obtain ⟨h1, h2, h3, h4, h5, h6, h7, h8, h9, h10, h11, h12, h13, h14, h15, h16, h17⟩ := h.shape
  exact ⟨h1, h2, h3, h4, h5, h6, h7, h8, h9, h10, h11, h12, h13, h14, h15, h16, h17⟩

theorem setStart_good {s : St} (h : Inv s) : Good s (step s .setStart) := by
  simp only [step]
  split
  · rename_i hx
    rw [touch_ok (srv_alive h.shape (Or.inl (owners_pos hx)))]
    exact Or.inr ⟨_, rfl, start_good h _⟩
  · exact Or.inl rfl

theorem clearStart_good {s : St} (h : Inv s) : Good s (step s .clearStart) := by
  simp only [step]
  split
  · rename_i hx
    rw [touch_ok (srv_alive h.shape (Or.inl (owners_pos hx)))]
    exact Or.inr ⟨_, rfl, start_good h _⟩
  · exact Or.inl rfl

/-- only the stage of a listed listener changes, to another stage of a listed listener -/
theorem stage_shape {s : St} (h : Shape s) {i : Nat} {st : Stage} (hi : i ∈ s.lst) (ht : st = .idle ∨ st = .acc (s.lctx i)) :
    Shape { s with stage := upd s.stage i st } := by
  obtain ⟨h1, h2, h3, h4, h5, h6, h7, h8, h9, h10, h11, h12, h13, h14, h15, h16, h17⟩ := h
  have hst := (h7 i).1 hi
  constructor
  case srv => exact h1
  case frz => exact h2
  case own => exact h3
  case ndL => exact h4
  case ndV => exact h5
  case ndR => exact h6
  case mL => intro j; have := h7 j; simp only [upd]; grind
  case mV => intro j; have := h8 j; simp only [upd]; grind
  case mR => intro j; have := h9 j; simp only [upd]; grind
  case acc => intro j p; have := h10 j p; simp only [upd]; grind
  case ini => intro j; have := h11 j; simp only [upd]; grind
  case lref => exact h12
  case excl => exact h13
  case fresh => intro j hj; have := h14 j hj; simp only [upd]; grind
  case lck => exact h15
  case vis => exact h16
  case pst => intro e he; have := h17 e he; simp only [upd]; grind

theorem accRead_good {s : St} (h : Inv s) (i : Nat) : Good s (step s (.accRead i)) := by
  simp only [step]
  split
  · rename_i hx
    exact Or.inr ⟨_, rfl, h.core, stage_shape h.shape ((h.shape.mL i).2 (Or.inl hx)) (Or.inr rfl)⟩
  · exact Or.inl rfl

theorem conn_shape {s : St} (h : Shape s) (h0 : s.srvFreed = 0) (sr : Nat → Nat) (p : Option Nat) :
    Shape { s with srvRefs := s.srvRefs + 1, sslRefs := sr, conns := (s.nextC, p) :: s.conns, nextC := s.nextC + 1 } := by
  obtain ⟨h1, h2, h3, h4, h5, h6, h7, h8, h9, h10, h11, h12, h13, h14, h15, h16, h17⟩ := h
  refine ⟨?_, ?_, h3, h4, h5, h6, h7, h8, h9, h10, h11, h12, h13, h14, h15, h16, h17⟩
  · simp; omega
  · simp [ind, h0]

theorem accUse_good {s : St} (h : Inv s) (i : Nat) (ok : Bool) : Good s (step s (.accUse i ok)) := by
  simp only [step]
  split
  · rename_i p hs
    have hl : i ∈ s.lst := (h.shape.mL i).2 (Or.inr ⟨p, hs⟩)
    have hr : i ∈ s.lrefs := by have := h.shape.mR i; grind
    have h0 := srv_alive h.shape (Or.inr (Or.inr (List.ne_nil_of_mem hr)))
    have hv := mem_live_of_lst h.shape hl
    have hlc := h.shape.acc i p hs
    rw [touch_ok h0]
    unfold accept
    cases p with
    | none =>
      refine Or.inr ⟨_, rfl, ?_, ?_⟩
      · refine h.core.congr (fun d => rfl) (fun d => ?_)
        simp [users, List.countP_cons]
      · exact stage_shape (conn_shape h.shape h0 s.sslRefs none) hl (Or.inl rfl)
    | some c =>
      have hH : 0 < holders s c := by
        have : 0 < liveHold s c := List.countP_pos_iff.2 ⟨i, hv, by simp [hlc]⟩
        simp only [holders]; omega
      dsimp only
      rw [if_neg (by rw [h.core.rf c]; omega)]
      split
      · refine Or.inr ⟨_, rfl, ?_, ?_⟩
        · obtain ⟨h1, h2, h3, h4, h5⟩ := h.core
          have hcn : c < s.next := by
            rcases Nat.lt_or_ge c s.next with h | h
            · exact h
            · have := (h5 c h).1; omega
          constructor <;> intro d
          all_goals have a1 := h1 d; have a2 := h2 d; have a3 := h3 d; have a4 := h4 d; have a5 := h5 d
          all_goals simp only [users, List.countP_cons, upd] at *
          · exact a1
          · show _ = ind (holders s d > 0) + _
            by_cases hd : d = c
            · subst hd; simp only [if_true, beq_self_eq_true]; omega
            · have : ¬ c = d := fun h => hd h.symm
              simp [hd, this]; omega
          · exact a3
          · by_cases hd : d = c
            · subst hd; simp only [if_true]; rw [a4, a2]; simp [ind, hH]
            · simp only [if_neg hd]; exact a4
          · intro hn
            have hd : ¬ c = d := by omega
            simp only [Option.some.injEq, beq_iff_eq, hd, if_false]
            exact a5 hn
        · exact stage_shape (conn_shape h.shape h0 _ (some c)) hl (Or.inl rfl)
      · refine Or.inr ⟨_, rfl, h.core, stage_shape h.shape hl (Or.inl rfl)⟩
  · exact Or.inl rfl

theorem runPosted_good {s : St} (h : Inv s) (k : Nat) : Good s (step s (.runPosted k)) := by
  simp only [step]
  split
  · rename_i e hk
    have hm : e ∈ s.posted := List.mem_of_getElem? hk
    have hng := h.shape.pst e hm
    unfold runOne
    split
    · rename_i hg; exact absurd hg hng
    · rename_i hidle
      have hl : e.1 ∈ s.lst := (h.shape.mL e.1).2 (Or.inl hidle)
      have hv := mem_live_of_lst h.shape hl
      have hcc : Core s.next s.refs s.sslRefs s.freed s.sslFreed
          (plusO (holders { s with posted := s.posted.eraseIdx k, lctx := upd s.lctx e.1 e.2 }) (s.lctx e.1)) (users s) := by
        refine h.core.congr (fun d => ?_) (fun _ => rfl)
        have a1 := countP_upd h.shape.ndV hv s.lctx e.2 d
        have a2 := countP_eraseIdx hk (fun e => e.2 == some d)
        simp only [holders, srvHold, liveHold, postHold, plusO]
        simp only [ind, beq_iff_eq] at *
        omega
      obtain ⟨r, sr, f, sf, he, hc'⟩ := releaseOpt_core (s := { s with posted := s.posted.eraseIdx k }) hcc
      rw [he]
      refine Or.inr ⟨_, rfl, hc', ?_⟩
      have hnref : ∀ p, s.lis ≠ .ref e.1 p := by
        intro p hp
        have := (h.shape.ini e.1).2 (Or.inr ⟨p, hp⟩)
        rw [hidle] at this; cases this
      obtain ⟨h1, h2, h3, h4, h5, h6, h7, h8, h9, h10, h11, h12, h13, h14, h15, h16, h17⟩ := h.shape
      refine ⟨h1, h2, h3, h4, h5, h6, h7, h8, h9, ?_, h11, ?_, h13, h14, h15, h16, ?_⟩
      · intro j p hj; have := h10 j p hj; dsimp only at hj ⊢; simp only [upd]; grind
      · intro j p hj; have := h12 j p hj; dsimp only at hj ⊢; simp only [upd]; grind
      · intro e' he'; exact h17 e' (List.mem_of_mem_eraseIdx he')
    · exact Or.inl rfl
  · exact Or.inl rfl

theorem dUnlink_good {s : St} (h : Inv s) (i : Nat) : Good s (step s (.dUnlink i)) := by
  simp only [step]
  split
  · rename_i hx
    obtain ⟨hs, hl⟩ := hx
    have hr : i ∈ s.lrefs := by have := h.shape.mR i; grind
    have h0 := srv_alive h.shape (Or.inr (Or.inr (List.ne_nil_of_mem hr)))
    rw [touch_ok h0]
    refine Or.inr ⟨_, rfl, h.core, ?_⟩
    have hnv := Shape.lockedNo hl
    obtain ⟨h1, h2, h3, h4, h5, h6, h7, h8, h9, h10, h11, h12, h13, h14, h15, h16, h17⟩ := h.shape
    constructor
    case srv => exact h1
    case frz => exact h2
    case own => exact h3
    case ndL => exact h4.erase i
    case ndV => exact h5
    case ndR => exact h6
    case mL => intro j; have := h7 j; simp only [upd, h4.mem_erase_iff]; grind
    case mV => intro j; have := h8 j; simp only [upd]; grind
    case mR => intro j; have := h9 j; simp only [upd]; grind
    case acc => intro j p; have := h10 j p; simp only [upd]; grind
    case ini => intro j; have := h11 j; simp only [upd]; grind
    case lref => exact h12
    case excl => exact h13
    case fresh => intro j hj; have := h14 j hj; simp only [upd]; grind
    case lck => exact h15
    case vis => intro c rest he; exact absurd he (hnv c rest)
    case pst => intro e he; have := h17 e he; simp only [upd]; grind
  · exact Or.inl rfl

theorem dRel_good {s : St} (h : Inv s) (i : Nat) : Good s (step s (.dRel i)) := by
  simp only [step]
  split
  · rename_i hs
    have hr : i ∈ s.lrefs := by have := h.shape.mR i; grind
    have h0 := srv_alive h.shape (Or.inr (Or.inr (List.ne_nil_of_mem hr)))
    have hlen := List.length_erase_of_mem hr
    have hpos := List.length_pos_of_mem hr
    have hsrv := h.shape.srv
    refine Or.inr (srvRelease_good (r0 := s.srvRefs - 1) (K := fun _ => 0) h.core ?_ h0 ?_ ?_ ?_)
    · dsimp only; omega
    · intro he
      dsimp only
      apply List.eq_nil_iff_forall_not_mem.2
      intro j hj
      have h1 := (h.shape.mL j).1 hj
      have h2 := h.shape.mR j
      have h3 : s.lrefs.erase i = [] := List.eq_nil_of_length_eq_zero (by omega)
      have h4 : j ∈ s.lrefs.erase i := h.shape.ndR.mem_erase_iff.2 ⟨by grind, by grind⟩
      rw [h3] at h4; cases h4
    · intro he
      have := h.shape.own
      simp only [calls] at this
      dsimp only
      split at this
      · assumption
      · omega
    · intro r sr f sf
      obtain ⟨h1, h2, h3, h4, h5, h6, h7, h8, h9, h10, h11, h12, h13, h14, h15, h16, h17⟩ := h.shape
      constructor
      case srv => dsimp only; omega
      case frz => rfl
      case own => exact h3
      case ndL => exact h4
      case ndV => exact h5
      case ndR => exact h6.erase i
      case mL => intro j; have := h7 j; simp only [upd]; grind
      case mV => intro j; have := h8 j; simp only [upd]; grind
      case mR => intro j; have := h9 j; simp only [upd, h6.mem_erase_iff]; grind
      case acc => intro j p; have := h10 j p; simp only [upd]; grind
      case ini => intro j; have := h11 j; simp only [upd]; grind
      case lref => exact h12
      case excl => exact h13
      case fresh => intro j hj; have := h14 j hj; simp only [upd]; grind
      case lck => exact h15
      case vis => exact h16
      case pst => intro e he; have := h17 e he; simp only [upd]; grind
  · exact Or.inl rfl

theorem dFree_good {s : St} (h : Inv s) (i : Nat) (hd : Disc s (.dFree i)) : Good s (step s (.dFree i)) := by
  simp only [step]
  split
  · rename_i hs
    have hv : i ∈ s.live := by have := h.shape.mV i; grind
    have hcc : Core s.next s.refs s.sslRefs s.freed s.sslFreed
        (plusO (holders { s with live := s.live.erase i, stage := upd s.stage i .gone }) (s.lctx i)) (users s) := by
      refine h.core.congr (fun d => ?_) (fun _ => rfl)
      have a1 := countP_erase hv (fun j => s.lctx j == some d)
      simp only [holders, srvHold, liveHold, postHold, plusO]
      simp only [ind, beq_iff_eq] at *
      omega
    obtain ⟨r, sr, f, sf, he, hc'⟩ := releaseOpt_core (s := { s with live := s.live.erase i, stage := upd s.stage i .gone }) hcc
    rw [he]
    refine Or.inr ⟨_, rfl, hc', ?_⟩
    have hnl : s.lis ≠ .append i := by
      intro hp
      have := (h.shape.ini i).2 (Or.inl hp)
      rw [hs] at this; cases this
    obtain ⟨h1, h2, h3, h4, h5, h6, h7, h8, h9, h10, h11, h12, h13, h14, h15, h16, h17⟩ := h.shape
    constructor
    case srv => exact h1
    case frz => exact h2
    case own => exact h3
    case ndL => exact h4
    case ndV => exact h5.erase i
    case ndR => exact h6
    case mL => intro j; have := h7 j; simp only [upd]; grind
    case mV => intro j; have := h8 j; simp only [upd, h5.mem_erase_iff]; grind
    case mR => intro j; have := h9 j; simp only [upd]; grind
    case acc => intro j p; have := h10 j p; simp only [upd]; grind
    case ini => intro j; have := h11 j; simp only [upd]; grind
    case lref => exact h12
    case excl => exact h13
    case fresh => intro j hj; have := h14 j hj; simp only [upd]; grind
    case lck => exact h15
    case vis => exact h16
    case pst => intro e he; have := h17 e he; have := hd e he; simp only [upd]; grind
  · exact Or.inl rfl

theorem connDestroy_good {s : St} (h : Inv s) (k : Nat) : Good s (step s (.connDestroy k)) := by
  simp only [step]
  split
  · rename_i e hk
    have hm : e ∈ s.conns := List.mem_of_getElem? hk
    have h0 := srv_alive h.shape (Or.inr (Or.inl (List.ne_nil_of_mem hm)))
    have hlt : k < s.conns.length := by
      rcases Nat.lt_or_ge k s.conns.length with h | h
      · exact h
      · rw [List.getElem?_eq_none h] at hk; cases hk
    have hlen : (s.conns.eraseIdx k).length + 1 = s.conns.length := by
      rw [List.length_eraseIdx, if_pos hlt]; omega
    have hsrv := h.shape.srv
    have hl : s.srvRefs - 1 = 0 → s.lst = [] := by
      intro he; exact lst_nil_of_lrefs h.shape (List.eq_nil_of_length_eq_zero (by omega))
    have hset : s.srvRefs - 1 = 0 → s.set = .idle := by
      intro he
      have := h.shape.own
      simp only [calls] at this
      split at this
      · assumption
      · omega
    have hsh : ∀ r sr f sf, Shape { s with
        conns := s.conns.eraseIdx k, refs := r, sslRefs := sr, freed := f, sslFreed := sf,
        srvRefs := s.srvRefs - 1, srvFreed := ind (s.srvRefs - 1 = 0) } := by
      intro r sr f sf
      obtain ⟨h1, h2, h3, h4, h5, h6, h7, h8, h9, h10, h11, h12, h13, h14, h15, h16, h17⟩ := h.shape
      refine ⟨?_, rfl, h3, h4, h5, h6, h7, h8, h9, h10, h11, h12, h13, h14, h15, h16, h17⟩
      dsimp only; omega
    unfold connDrop
    split
    · rename_i he
      refine Or.inr (srvRelease_good (r0 := s.srvRefs - 1) (K := fun _ => 0) ?_ ?_ h0 hl hset hsh)
      · refine h.core.congr (fun _ => rfl) (fun d => ?_)
        have := countP_eraseIdx hk (fun e => e.2 == some d)
        simp only [users]; rw [he] at this; simpa using this.symm
      · dsimp only; omega
    · rename_i c he
      have hcc : Core s.next s.refs s.sslRefs s.freed s.sslFreed (holders s) (plus (users { s with conns := s.conns.eraseIdx k }) c) := by
        refine h.core.congr (fun _ => rfl) (fun d => ?_)
        have := countP_eraseIdx hk (fun e => e.2 == some d)
        rw [he] at this
        simp only [users, plus, ind]
        rw [← this]
        by_cases hcd : d = c
        · subst hcd; simp
        · have hcd' : ¬ c = d := fun h => hcd h.symm
          simp [hcd, hcd']
      obtain ⟨hne, hc'⟩ := sslDrop_core (s := { s with conns := s.conns.eraseIdx k }) hcc
      rw [if_neg hne]
      refine Or.inr (srvRelease_good (r0 := s.srvRefs - 1) (K := fun _ => 0) hc' ?_ h0 hl hset ?_)
      · simp only [sslDrop]; omega
      · intro r sr f sf; exact hsh r sr f sf
  · exact Or.inl rfl

theorem step_good {s : St} (h : Inv s) (o : Op) (hd : Disc s o) : Good s (step s o) := by
  cases o with
  | newCtx => exact newCtx_good h
  | extRef c => exact extRef_good h c
  | extRelease c => exact extRelease_good h c
  | ownRef => exact ownRef_good h
  | ownRelease => exact ownRelease_good h
  | setBegin c => exact setBegin_good h c hd
  | bindBegin c a => exact bindBegin_good h c a hd
  | setAssign => exact setAssign_good h
  | setLock => exact setLock_good h
  | setVisit => exact setVisit_good h hd
  | setEnd => exact setEnd_good h
  | lisInit => exact lisInit_good h hd
  | lisRef => exact lisRef_good h
  | lisAppend => exact lisAppend_good h
  | setStart => exact setStart_good h
  | clearStart => exact clearStart_good h
  | accRead i => exact accRead_good h i
  | accUse i ok => exact accUse_good h i ok
  | runPosted k => exact runPosted_good h k
  | dUnlink i => exact dUnlink_good h i
  | dRel i => exact dRel_good h i
  | dFree i => exact dFree_good h i hd
  | connDestroy k => exact connDestroy_good h k

end Kasync.SslCtx
