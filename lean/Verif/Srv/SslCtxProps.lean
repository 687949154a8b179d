import Verif.Srv.SslCtxSteps

/-!
# C52: the TLS context of a server

Histories (`Run`) are all interleavings of the application's calls, the listeners' threads and the connections that keep the calling
discipline `Disc`: `kserver_bind` / `kserver_set_ssl_ctx` and `kserver_listen` do not overlap, no listener is freed while an update of its
context is pending, and a server that is not started is not given a context while one of its listeners is making a connection.  The
findings at the end show what the code does without each of the three.
-/

namespace Kasync.SslCtx

/-- A disciplined history from `s` to `s'`. -/
inductive Run : St → List Op → St → Prop where
  | nil (s : St) : Run s [] s
  | cons {s s1 s2 : St} {o : Op} {os : List Op} : Disc s o → step s o = .ok s1 → Run s1 os s2 → Run s (o :: os) s2

theorem Run.inv {s s' : St} {os : List Op} (h : Run s os s') (hi : Inv s) : Inv s' := by
  induction h with
  | nil => exact hi
  | cons hd he _ ih =>
    apply ih
    rcases step_good hi _ hd with h | ⟨s1, h1, h2⟩
    · rw [h] at he; cases he
    · rw [h1] at he; cases he; exact h2

theorem run_inv {s : St} {os : List Op} (h : Run init os s) : Inv s := h.inv inv_init

theorem Run.append {s s1 s2 : St} {a b : List Op} (h : Run s a s1) (h2 : Run s1 b s2) : Run s (a ++ b) s2 := by
  induction h with
  | nil => exact h2
  | cons hd he _ ih => exact .cons hd he (ih h2)

/-! ## Specification -/

/-- A listener in memory that has taken over its reference. -/
def Listener (s : St) (i : Nat) : Prop := (s.stage i ≠ .gone ∧ s.stage i ≠ .init) ∨ s.lis = .append i

/-- Somebody holds a reference on context `c`: the application, a call that was given it, the server, a listener, or an update under way
to a listener. -/
inductive Held (s : St) (c : Nat) : Prop where
  | app (h : 0 < s.ext c)
  | call (h : s.set = .assign (some c))
  | server (h : s.sctx = some c) (ha : s.srvFreed = 0) (hn : ∀ p, s.set ≠ .assign p)
  | listener (i : Nat) (h : Listener s i) (hc : s.lctx i = some c)
  | update (i : Nat) (h : (i, some c) ∈ s.posted)

theorem held_iff {s : St} (h : Inv s) (c : Nat) : Held s c ↔ 0 < holders s c := by
  constructor
  · rintro (h1 | h1 | ⟨h1, h2, h3⟩ | ⟨i, h1, h2⟩ | ⟨i, h1⟩)
    · simp only [holders]; omega
    · have : srvHold s c = 1 := by simp [srvHold, h1, ind]
      simp only [holders]; omega
    · have : srvHold s c = 1 := by
        unfold srvHold
        split
        · rename_i p he; exact absurd he (h3 p)
        · simp [ind, h1, h2]
      simp only [holders]; omega
    · have : 0 < liveHold s c := List.countP_pos_iff.2 ⟨i, (h.shape.mV i).2 h1, by simp [h2]⟩
      simp only [holders]; omega
    · have : 0 < postHold s c := List.countP_pos_iff.2 ⟨_, h1, by simp⟩
      simp only [holders]; omega
  · intro hp
    by_cases h1 : 0 < s.ext c
    · exact .app h1
    by_cases h2 : 0 < srvHold s c
    · unfold srvHold at h2
      split at h2
      · rename_i p he
        by_cases hpc : p = some c
        · exact .call (by rw [he, hpc])
        · simp [ind, hpc] at h2
      · rename_i hna
        by_cases hpc : s.srvFreed = 0 ∧ s.sctx = some c
        · exact .server hpc.2 hpc.1 hna
        · rw [ind, if_neg hpc] at h2; omega
    by_cases h3 : 0 < liveHold s c
    · obtain ⟨i, h4, h5⟩ := List.countP_pos_iff.1 h3
      exact .listener i ((h.shape.mV i).1 h4) (by simpa using h5)
    · have h4 : 0 < postHold s c := by simp only [holders] at hp; omega
      obtain ⟨⟨i, d⟩, h4, h5⟩ := List.countP_pos_iff.1 h4
      simp only [beq_iff_eq] at h5
      subst h5
      exact .update i h4

/-! ## Theorems -/

/-- **C52.**  No disciplined step uses freed memory, frees twice or fails an assertion. -/
theorem sslctx_no_ub {s : St} {os : List Op} {o : Op} (h : Run init os s) (hd : Disc s o) : step s o ≠ .ub := by
  rcases step_good (run_inv h) o hd with h | ⟨s', h, _⟩ <;> rw [h] <;> intro he <;> cases he

/-- **C52.**  A context is freed exactly once, and exactly when nobody holds it any more. -/
theorem sslctx_freed_iff {s : St} {os : List Op} (h : Run init os s) {c : Nat} (hc : c < s.next) :
    s.freed c ≤ 1 ∧ (s.freed c = 1 ↔ ¬ Held s c) := by
  have hi := run_inv h
  rw [held_iff hi, hi.core.fr c, ind]
  constructor
  · split <;> omega
  · split
    · rename_i h1; simp; omega
    · rename_i h1; simp; omega

/-- **C52.**  Between two configuring calls the counter of a context is the number of its holders. -/
theorem sslctx_refs_exact {s : St} {os : List Op} (h : Run init os s) (hs : s.set = .idle) (c : Nat) :
    s.refs c = s.ext c + (if s.srvFreed = 0 ∧ s.sctx = some c then 1 else 0)
      + (s.live.filter (fun i => s.lctx i == some c)).length + (s.posted.filter (fun e => e.2 == some c)).length := by
  have hi := run_inv h
  rw [hi.core.rf c, holders, liveHold, postHold, List.countP_eq_length_filter, List.countP_eq_length_filter]
  simp only [srvHold, hs, ind]

/-- **C52.**  The OpenSSL context goes exactly once, when its counted wrapper is freed and the last connection made with it is gone. -/
theorem sslctx_openssl_freed_iff {s : St} {os : List Op} (h : Run init os s) {c : Nat} (hc : c < s.next) :
    s.sslFreed c ≤ 1 ∧ (s.sslFreed c = 1 ↔ s.freed c = 1 ∧ ∀ k, (k, some c) ∉ s.conns) := by
  have hi := run_inv h
  have h1 := hi.core.fr c
  have h2 := hi.core.sf c
  have h3 := hi.core.sl c
  have h4 : users s c = 0 ↔ ∀ k, (k, some c) ∉ s.conns := by
    rw [users, List.countP_eq_zero]
    constructor
    · intro h k hk; simpa using h _ hk
    · rintro h ⟨k, d⟩ hk hd
      simp only [beq_iff_eq] at hd
      subst hd; exact h k hk
  rw [← h4, h1, h2]
  simp only [ind, hc, true_and] at *
  constructor
  · split <;> omega
  · rw [h3]; by_cases hh : holders s c = 0 <;> simp [hh] <;> omega

/-- **C52.**  A connection's OpenSSL context is there as long as the connection. -/
theorem sslctx_connection_context_alive {s : St} {os : List Op} (h : Run init os s) {k c : Nat} (hk : (k, some c) ∈ s.conns) :
    s.sslFreed c = 0 := by
  have hi := run_inv h
  have hu : 0 < users s c := List.countP_pos_iff.2 ⟨_, hk, by simp⟩
  rw [hi.core.sf c, ind, if_neg]
  have := hi.core.sl c
  omega

/-- **C52.**  Nothing is leaked: when the application has given up its references, the listeners and connections are gone and no update is
pending, the server object and every context are freed. -/
theorem sslctx_nothing_leaked {s : St} {os : List Op} (h : Run init os s) (ho : s.owners = 0) (hx : ∀ c, s.ext c = 0)
    (hl : ∀ i, s.stage i = .gone) (hc : s.conns = []) (hp : s.posted = []) :
    s.srvFreed = 1 ∧ ∀ c, c < s.next → s.freed c = 1 ∧ s.sslFreed c = 1 := by
  have hi := run_inv h
  have hlr : s.lrefs = [] := by
    apply List.eq_nil_iff_forall_not_mem.2
    intro i hm; exact ((hi.shape.mR i).1 hm).1 (hl i)
  have h0 : s.srvFreed = 1 := by
    rw [hi.shape.frz, hi.shape.srv, ho, hc, hlr]; rfl
  have hcalls := hi.shape.own
  rw [ho] at hcalls
  have hset : s.set = .idle := by
    simp only [calls] at hcalls
    split at hcalls
    · assumption
    · omega
  have hlis : s.lis = .idle := by
    simp only [calls] at hcalls
    by_cases h : s.lis = .idle
    · exact h
    · simp [h] at hcalls
  refine ⟨h0, fun c hcn => ?_⟩
  have h1 : s.freed c = 1 := by
    rw [(sslctx_freed_iff h hcn).2]
    rintro (h1 | h1 | ⟨_, h2, _⟩ | ⟨i, h1, _⟩ | ⟨i, h1⟩)
    · have := hx c; omega
    · rw [hset] at h1; cases h1
    · omega
    · rcases h1 with h1 | h1
      · exact h1.1 (hl i)
      · rw [hlis] at h1; cases h1
    · rw [hp] at h1; cases h1
  exact ⟨h1, (sslctx_openssl_freed_iff h hcn).2.2 ⟨h1, by simp [hc]⟩⟩

/-- **C52.**  A server that has a context keeps it when it is given none. -/
theorem sslctx_set_null_ignored {s s' : St} (hs : s.sctx.isSome) (he : step s (.setBegin none) = .ok s') : s' = s := by
  simp only [step] at he
  split at he
  · unfold touch at he
    split at he
    · simp only [setEntry, handOver, hs, true_and] at he
      rw [if_pos trivial] at he; cases he; rfl
    · cases he
  · cases he

/-! ### Which context a listener uses -/

theorem release_fields {s s' : St} {c : Nat} (h : release s c = .ok s') :
    ∃ r sr f sf, s' = { s with refs := r, sslRefs := sr, freed := f, sslFreed := sf } := by
  unfold release at h
  split at h
  · cases h
  · split at h
    · split at h
      · cases h
      · cases h; exact ⟨_, _, _, _, rfl⟩
    · cases h; exact ⟨_, _, _, _, rfl⟩

theorem releaseOpt_fields {s s' : St} {p : Option Nat} (h : releaseOpt s p = .ok s') :
    ∃ r sr f sf, s' = { s with refs := r, sslRefs := sr, freed := f, sslFreed := sf } := by
  cases p with
  | none => cases h; exact ⟨_, _, _, _, rfl⟩
  | some c => exact release_fields h

theorem addRefOpt_fields {s s' : St} {p : Option Nat} (h : addRefOpt s p = .ok s') : ∃ r, s' = { s with refs := r } := by
  cases p with
  | none => cases h; exact ⟨_, rfl⟩
  | some c =>
    simp only [addRefOpt] at h
    split at h
    · cases h
    · cases h; exact ⟨_, rfl⟩

theorem srvRelease_fields {s s' : St} (h : srvRelease s = .ok s') :
    ∃ r sr f sf a b, s' = { s with refs := r, sslRefs := sr, freed := f, sslFreed := sf, srvRefs := a, srvFreed := b } := by
  unfold srvRelease at h
  split at h
  · cases h
  · split at h
    · split at h
      · cases h
      · obtain ⟨r, sr, f, sf, he⟩ := releaseOpt_fields h
        exact ⟨r, sr, f, sf, _, _, he⟩
    · cases h; exact ⟨_, _, _, _, _, _, rfl⟩

theorem touch_inv {s : St} {r : Res St} {s' : St} (h : touch s r = .ok s') : r = .ok s' := by
  unfold touch at h; split at h
  · exact h
  · cases h

theorem setEntry_fields {s s' : St} {c : Option Nat} (h : setEntry s c = .ok s') :
    (s' = s ∧ s.sctx.isSome ∧ c = none) ∨
    (¬ (s.sctx.isSome ∧ c = none) ∧
      ∃ r sr f sf, s' = { s with refs := r, sslRefs := sr, freed := f, sslFreed := sf, set := .assign c }) := by
  unfold setEntry at h
  split at h
  · rename_i h1; cases h; exact Or.inl ⟨rfl, h1⟩
  · rename_i h1
    split at h
    · rename_i s1 h2
      obtain ⟨r, sr, f, sf, he⟩ := releaseOpt_fields h2
      subst he
      cases h; exact Or.inr ⟨h1, _, _, _, _, rfl⟩
    · rename_i hne
      rw [h] at hne; exact absurd rfl (hne _)

/-- a call that gives the server a (new) context -/
def isSet : Op → Bool
  | .setBegin _ => true
  | .bindBegin _ _ => true
  | _ => false

/-- from a call that hands over `c` on: what is known about listener `i` -/
structure Aim (i : Nat) (c : Option Nat) (s : St) : Prop where
  set : s.set = .idle ∨ s.set = .assign c ∨ s.set = .lock c ∨ ∃ rest, s.set = .visit c rest
  sctx : (∀ p, s.set ≠ .assign p) → s.sctx = c
  post : ∀ e ∈ s.posted, e.1 = i → e.2 = c
  lisC : s.set = .assign c → s.lis = .idle
  lref : ∀ p, s.lis = .ref i p ∨ s.lis = .append i → s.lctx i = c
  lst : i ∈ s.lst → s.set = .assign c ∨ s.set = .lock c ∨ (∃ rest, s.set = .visit c rest ∧ i ∈ rest) ∨ s.lctx i = c ∨ (i, c) ∈ s.posted

theorem mem_eraseIdx_of_ne {α : Type} {l : List α} {k : Nat} {e x : α} (h : l[k]? = some e) (hx : x ∈ l) (hne : x ≠ e) :
    x ∈ l.eraseIdx k := by
  induction l generalizing k with
  | nil => cases hx
  | cons a l ih =>
    cases k with
    | zero =>
      simp only [List.getElem?_cons_zero, Option.some.injEq] at h
      subst h
      rcases List.mem_cons.1 hx with h | h
      · exact absurd h hne
      · exact h
    | succ k =>
      simp only [List.getElem?_cons_succ] at h
      rw [List.eraseIdx_cons_succ]
      rcases List.mem_cons.1 hx with h1 | h1
      · exact List.mem_cons.2 (Or.inl h1)
      · exact List.mem_cons.2 (Or.inr (ih h h1))

theorem step_aim {i : Nat} {c : Option Nat} {s s' : St} {o : Op} (hi : Inv s) (h : Aim i c s) (hd : Disc s o) (hns : isSet o = false)
    (he : step s o = .ok s') : Aim i c s' := by
  obtain ⟨a1, a2, a3, a6, a4, a5⟩ := h
  cases o with
  | newCtx => cases he; exact ⟨a1, a2, a3, a6, a4, a5⟩
  | extRef d =>
    simp only [step] at he
    split at he
    · split at he
      · rename_i h1
        obtain ⟨r, hr⟩ := addRefOpt_fields h1
        subst hr; cases he; exact ⟨a1, a2, a3, a6, a4, a5⟩
      · rename_i hne; rw [he] at hne; exact absurd rfl (hne _)
    · cases he
  | extRelease d =>
    simp only [step] at he
    split at he
    · obtain ⟨r, sr, f, sf, hr⟩ := release_fields he
      subst hr; exact ⟨a1, a2, a3, a6, a4, a5⟩
    · cases he
  | ownRef =>
    simp only [step] at he
    split at he
    · have := touch_inv he; cases this; exact ⟨a1, a2, a3, a6, a4, a5⟩
    · cases he
  | ownRelease =>
    simp only [step] at he
    split at he
    · obtain ⟨r, sr, f, sf, x, y, hr⟩ := srvRelease_fields he
      subst hr; exact ⟨a1, a2, a3, a6, a4, a5⟩
    · cases he
  | setBegin d => cases hns
  | bindBegin d a => cases hns
  | setAssign =>
    simp only [step] at he
    split at he
    · rename_i d hs
      have := touch_inv he; cases this
      have hdc : d = c := by rw [hs] at a1; rcases a1 with a | a | a | ⟨r, a⟩ <;> cases a; rfl
      subst hdc
      have hl := a6 hs
      constructor
      case set => exact Or.inr (Or.inr (Or.inl rfl))
      case sctx => intro _; rfl
      case post => exact a3
      case lisC => intro h; cases h
      case lref => intro p hp; dsimp only at hp; rw [hl] at hp; rcases hp with h | h <;> cases h
      case lst => intro _; exact Or.inr (Or.inl rfl)
    · cases he
  | setLock =>
    simp only [step] at he
    split at he
    · rename_i d hs
      have := touch_inv he; cases this
      have hdc : d = c := by rw [hs] at a1; rcases a1 with a | a | a | ⟨r, a⟩ <;> cases a; rfl
      subst hdc
      constructor
      case set => exact Or.inr (Or.inr (Or.inr ⟨_, rfl⟩))
      case sctx => intro _; exact a2 (by intro p hp; rw [hs] at hp; cases hp)
      case post => exact a3
      case lisC => intro h; cases h
      case lref => exact a4
      case lst => intro hm; exact Or.inr (Or.inr (Or.inl ⟨_, rfl, hm⟩))
    · cases he
  | setVisit =>
    simp only [step] at he
    split at he
    · rename_i d j rest hs
      have hv := touch_inv he
      have hdc : d = c := by rw [hs] at a1; rcases a1 with a | a | a | ⟨r, a⟩ <;> cases a; rfl
      subst hdc
      have hsc := a2 (by intro p hp; rw [hs] at hp; cases hp)
      have hl : s.lis = .idle := by have := hi.shape.excl; simpa [hs] using this
      unfold visitOne at hv
      split at hv
      · cases hv
      · split at hv
        · rename_i s1 h1
          obtain ⟨r, hr⟩ := addRefOpt_fields h1
          subst hr
          split at hv
          · split at hv
            · rename_i s2 h2
              obtain ⟨r', sr, f, sf, hr⟩ := releaseOpt_fields h2
              subst hr
              cases hv
              constructor
              case set => exact Or.inr (Or.inr (Or.inr ⟨_, rfl⟩))
              case sctx => intro _; exact hsc
              case post => exact a3
              case lisC => intro h; cases h
              case lref => intro p hp; dsimp only at hp; rw [hl] at hp; rcases hp with h | h <;> cases h
              case lst =>
                intro hm
                by_cases hij : i = j
                · subst hij; exact Or.inr (Or.inr (Or.inr (Or.inl (upd_same _ _ _))))
                · rcases a5 hm with h | h | ⟨r, h, hr⟩ | h | h
                  · rw [hs] at h; cases h
                  · rw [hs] at h; cases h
                  · rw [hs] at h; cases h
                    rcases List.mem_cons.1 hr with h | h
                    · exact absurd h hij
                    · exact Or.inr (Or.inr (Or.inl ⟨_, rfl, h⟩))
                  · refine Or.inr (Or.inr (Or.inr (Or.inl ?_))); dsimp only; rw [upd_ne _ _ hij]; exact h
                  · exact Or.inr (Or.inr (Or.inr (Or.inr h)))
            · rename_i hne; rw [hv] at hne; exact absurd rfl (hne _)
          · cases hv
            constructor
            case set => exact Or.inr (Or.inr (Or.inr ⟨_, rfl⟩))
            case sctx => intro _; exact hsc
            case post =>
              intro e he' hei
              rcases List.mem_cons.1 he' with h | h
              · subst h; rfl
              · exact a3 e h hei
            case lisC => intro h; cases h
            case lref => exact a4
            case lst =>
              intro hm
              by_cases hij : i = j
              · subst hij; exact Or.inr (Or.inr (Or.inr (Or.inr (List.mem_cons.2 (Or.inl rfl)))))
              · rcases a5 hm with h | h | ⟨r, h, hr⟩ | h | h
                · rw [hs] at h; cases h
                · rw [hs] at h; cases h
                · rw [hs] at h; cases h
                  rcases List.mem_cons.1 hr with h | h
                  · exact absurd h hij
                  · exact Or.inr (Or.inr (Or.inl ⟨_, rfl, h⟩))
                · exact Or.inr (Or.inr (Or.inr (Or.inl h)))
                · exact Or.inr (Or.inr (Or.inr (Or.inr (List.mem_cons.2 (Or.inr h)))))
        · rename_i hne; rw [hv] at hne; exact absurd rfl (hne _)
    · cases he
  | setEnd =>
    simp only [step] at he
    split at he
    · rename_i d hs
      have := touch_inv he; cases this
      have hdc : d = c := by rw [hs] at a1; rcases a1 with a | a | a | ⟨r, a⟩ <;> cases a; rfl
      subst hdc
      constructor
      case set => exact Or.inl rfl
      case sctx => intro _; exact a2 (by intro p hp; rw [hs] at hp; cases hp)
      case post => exact a3
      case lisC => intro h; cases h
      case lref => exact a4
      case lst =>
        intro hm
        rcases a5 hm with h | h | ⟨r, h, hr⟩ | h | h
        · rw [hs] at h; cases h
        · rw [hs] at h; cases h
        · rw [hs] at h; cases h; cases hr
        · exact Or.inr (Or.inr (Or.inr (Or.inl h)))
        · exact Or.inr (Or.inr (Or.inr (Or.inr h)))
    · cases he
  | lisInit =>
    simp only [step] at he
    split at he
    · have := touch_inv he; cases this
      have hset : s.set = .idle := hd
      have hsc := a2 (by intro p hp; rw [hset] at hp; cases hp)
      have hnl : i ∈ s.lst → i ≠ s.nextL := by
        intro hm hn
        have h1 := (hi.shape.mL i).1 hm
        have h2 := hi.shape.fresh i (by omega)
        rw [h2] at h1; rcases h1 with h | ⟨p, h⟩ <;> cases h
      constructor
      case set => exact a1
      case sctx => exact a2
      case post => exact a3
      case lisC => intro h; dsimp only at h; rw [hset] at h; cases h
      case lref =>
        intro p hp
        rcases hp with h | h
        · cases h; dsimp only; rw [upd_same]; exact hsc
        · cases h
      case lst =>
        intro hm
        rcases a5 hm with h | h | h | h | h
        · exact Or.inl h
        · exact Or.inr (Or.inl h)
        · exact Or.inr (Or.inr (Or.inl h))
        · refine Or.inr (Or.inr (Or.inr (Or.inl ?_))); dsimp only; rw [upd_ne _ _ (hnl hm)]; exact h
        · exact Or.inr (Or.inr (Or.inr (Or.inr h)))
    · cases he
  | lisRef =>
    simp only [step] at he
    split at he
    · rename_i j p hs
      split at he
      · rename_i s1 h1
        obtain ⟨r, hr⟩ := addRefOpt_fields h1
        subst hr
        cases he
        constructor
        case set => exact a1
        case sctx => exact a2
        case post => exact a3
        case lisC => intro h; have := a6 h; rw [hs] at this; cases this
        case lref =>
          intro q hq
          rcases hq with h | h
          · cases h
          · cases h; exact a4 p (Or.inl hs)
        case lst => exact a5
      · rename_i hne; rw [he] at hne; exact absurd rfl (hne _)
    · cases he
  | lisAppend =>
    simp only [step] at he
    split at he
    · rename_i j hs
      split at he
      · cases he
      · have := touch_inv he; cases this
        constructor
        case set => exact a1
        case sctx => exact a2
        case post => exact a3
        case lisC => intro _; rfl
        case lref => intro q hq; rcases hq with h | h <;> cases h
        case lst =>
          intro hm
          rcases List.mem_append.1 hm with hm | hm
          · exact a5 hm
          · simp only [List.mem_singleton] at hm; subst hm
            exact Or.inr (Or.inr (Or.inr (Or.inl (a4 none (Or.inr hs)))))
    · cases he
  | setStart =>
    simp only [step] at he
    split at he
    · have := touch_inv he; cases this; exact ⟨a1, a2, a3, a6, a4, a5⟩
    · cases he
  | clearStart =>
    simp only [step] at he
    split at he
    · have := touch_inv he; cases this; exact ⟨a1, a2, a3, a6, a4, a5⟩
    · cases he
  | accRead j =>
    simp only [step] at he
    split at he
    · cases he; exact ⟨a1, a2, a3, a6, a4, a5⟩
    · cases he
  | accUse j ok =>
    simp only [step] at he
    split at he
    · have hv := touch_inv he
      unfold accept at hv
      split at hv
      · cases hv; exact ⟨a1, a2, a3, a6, a4, a5⟩
      · split at hv
        · cases hv
        · split at hv <;> cases hv <;> exact ⟨a1, a2, a3, a6, a4, a5⟩
    · cases he
  | runPosted k =>
    simp only [step] at he
    split at he
    · rename_i e hk
      have hm : e ∈ s.posted := List.mem_of_getElem? hk
      unfold runOne at he
      split at he
      · cases he
      · rename_i hidle
        split at he
        · rename_i s1 h1
          obtain ⟨r, sr, f, sf, hr⟩ := releaseOpt_fields h1
          subst hr
          cases he
          constructor
          case set => exact a1
          case sctx => exact a2
          case post => intro x hx; exact a3 x (List.mem_of_mem_eraseIdx hx)
          case lisC => exact a6
          case lref =>
            intro p hp
            dsimp only
            by_cases hij : i = e.1
            · rw [hij, upd_same]; exact a3 e hm hij.symm
            · rw [upd_ne _ _ hij]; exact a4 p hp
          case lst =>
            intro hml
            by_cases hij : i = e.1
            · refine Or.inr (Or.inr (Or.inr (Or.inl ?_))); dsimp only; rw [hij, upd_same]; exact a3 e hm hij.symm
            · rcases a5 hml with h | h | h | h | h
              · exact Or.inl h
              · exact Or.inr (Or.inl h)
              · exact Or.inr (Or.inr (Or.inl h))
              · refine Or.inr (Or.inr (Or.inr (Or.inl ?_))); dsimp only; rw [upd_ne _ _ hij]; exact h
              · refine Or.inr (Or.inr (Or.inr (Or.inr (mem_eraseIdx_of_ne hk h ?_))))
                intro hx; exact hij (by rw [← hx])
        · rename_i hne; rw [he] at hne; exact absurd rfl (hne _)
      · cases he
    · cases he
  | dUnlink j =>
    simp only [step] at he
    split at he
    · have := touch_inv he; cases this
      exact ⟨a1, a2, a3, a6, a4, fun hm => a5 (List.mem_of_mem_erase hm)⟩
    · cases he
  | dRel j =>
    simp only [step] at he
    split at he
    · obtain ⟨r, sr, f, sf, x, y, hr⟩ := srvRelease_fields he
      subst hr; exact ⟨a1, a2, a3, a6, a4, a5⟩
    · cases he
  | dFree j =>
    simp only [step] at he
    split at he
    · obtain ⟨r, sr, f, sf, hr⟩ := releaseOpt_fields he
      subst hr; exact ⟨a1, a2, a3, a6, a4, a5⟩
    · cases he
  | connDestroy k =>
    simp only [step] at he
    split at he
    · unfold connDrop at he
      split at he
      · obtain ⟨r, sr, f, sf, x, y, hr⟩ := srvRelease_fields he
        subst hr; exact ⟨a1, a2, a3, a6, a4, a5⟩
      · split at he
        · cases he
        · obtain ⟨r, sr, f, sf, x, y, hr⟩ := srvRelease_fields he
          subst hr; exact ⟨a1, a2, a3, a6, a4, a5⟩
    · cases he

theorem run_aim {i : Nat} {c : Option Nat} {s s' : St} {os : List Op} (hi : Inv s) (h : Aim i c s) (hr : Run s os s')
    (hns : ∀ o ∈ os, isSet o = false) : Aim i c s' := by
  induction hr with
  | nil => exact h
  | @cons s s1 s2 o os hd he hr' ih =>
    have hi1 : Inv s1 := (Run.cons hd he (.nil s1)).inv hi
    exact ih hi1 (step_aim hi h hd (hns o (by simp)) he) (fun o ho => hns o (by simp [ho]))

theorem aim_of_setBegin {i : Nat} {c : Nat} {s s' : St} (hd : Disc s (.setBegin (some c)))
    (hp : ∀ p, (i, p) ∉ s.posted) (he : step s (.setBegin (some c)) = .ok s') : Aim i (some c) s' := by
  have hl : s.lis = .idle := hd
  simp only [step] at he
  split at he
  · have h1 := touch_inv he
    rcases setEntry_fields h1 with ⟨_, _, h⟩ | ⟨_, r, sr, f, sf, h⟩
    · cases h
    · subst h
      constructor
      case set => exact Or.inr (Or.inl rfl)
      case sctx => intro h; exact absurd rfl (h _)
      case post => rintro ⟨j, p⟩ hm hj; dsimp only at hj; subst hj; exact absurd hm (hp p)
      case lisC => intro _; exact hl
      case lref => intro p h; dsimp only [handOver] at h; rw [hl] at h; rcases h with h | h <;> cases h
      case lst => intro _; exact Or.inl rfl
  · cases he

/-- **C52.**  `kserver_set_ssl_ctx(server, c)` reaches every listener: whatever happens afterwards short of another context being set, once
the call has returned and the updates of listener `i` have run, `i` uses `c`; the listener may also be one added after the call.  (Required:
no older update of `i` was still pending when the call was made, see the finding.) -/
theorem sslctx_set_reaches {s s1 s' : St} {os0 os : List Op} {c i : Nat} (h : Run init os0 s) (hd : Disc s (.setBegin (some c)))
    (hp : ∀ p, (i, p) ∉ s.posted) (he : step s (.setBegin (some c)) = .ok s1) (hr : Run s1 os s') (hns : ∀ o ∈ os, isSet o = false)
    (hidle : s'.set = .idle) (hdone : ∀ p, (i, p) ∉ s'.posted) :
    s'.sctx = some c ∧ (i ∈ s'.lst → s'.lctx i = some c) := by
  have hi1 : Inv s1 := (Run.cons hd he (.nil s1)).inv (run_inv h)
  have ha := run_aim hi1 (aim_of_setBegin hd hp he) hr hns
  refine ⟨ha.sctx (by intro p h; rw [hidle] at h; cases h), fun hm => ?_⟩
  rcases ha.lst hm with h | h | ⟨r, h, _⟩ | h | h
  · rw [hidle] at h; cases h
  · rw [hidle] at h; cases h
  · rw [hidle] at h; cases h
  · exact h
  · exact absurd h (hdone _)

/-- **C52.**  The same for a successful `kserver_bind(…, c)`. -/
theorem sslctx_bind_reaches {s s1 s' : St} {os0 os : List Op} {c i : Nat} {a : Bool} (h : Run init os0 s)
    (hd : Disc s (.bindBegin (some c) a)) (hp : ∀ p, (i, p) ∉ s.posted) (he : step s (.bindBegin (some c) a) = .ok s1)
    (hok : s1.binds = true :: s.binds) (hr : Run s1 os s') (hns : ∀ o ∈ os, isSet o = false)
    (hidle : s'.set = .idle) (hdone : ∀ p, (i, p) ∉ s'.posted) :
    s'.sctx = some c ∧ (i ∈ s'.lst → s'.lctx i = some c) := by
  have hi1 : Inv s1 := (Run.cons hd he (.nil s1)).inv (run_inv h)
  have hl : s.lis = .idle := hd
  have ha1 : Aim i (some c) s1 := by
    simp only [step] at he
    split at he
    · have h1 := touch_inv he
      split at h1
      · rename_i h2; cases h2.2
      · split at h1
        · split at h1
          · rename_i s2 h3
            obtain ⟨r, sr, f, sf, h4⟩ := releaseOpt_fields h3
            cases h1; simp [h4, handOver] at hok
          · rename_i hne; rw [h1] at hne; exact absurd rfl (hne _)
        · split at h1
          · rename_i s2 h3
            cases h1
            rcases setEntry_fields h3 with ⟨_, _, h⟩ | ⟨_, r, sr, f, sf, h⟩
            · cases h
            · subst h
              constructor
              case set => exact Or.inr (Or.inl rfl)
              case sctx => intro h; exact absurd rfl (h _)
              case post => rintro ⟨j, p⟩ hm hj; dsimp only at hj; subst hj; exact absurd hm (hp p)
              case lisC => intro _; exact hl
              case lref => intro p h; dsimp only [handOver] at h; rw [hl] at h; rcases h with h | h <;> cases h
              case lst => intro _; exact Or.inl rfl
          · rename_i hne; rw [h1] at hne; exact absurd rfl (hne _)
    · cases he
  have ha := run_aim hi1 ha1 hr hns
  refine ⟨ha.sctx (by intro p h; rw [hidle] at h; cases h), fun hm => ?_⟩
  rcases ha.lst hm with h | h | ⟨r, h, _⟩ | h | h
  · rw [hidle] at h; cases h
  · rw [hidle] at h; cases h
  · rw [hidle] at h; cases h
  · exact h
  · exact absurd h (hdone _)

/-- **C52.**  A connection is made with the context its listener has at that moment: a plain connection only if the listener has none.  If OpenSSL
cannot make the TLS object there is no connection, rather than a plain one. -/
theorem sslctx_connection_uses {s s' : St} {os : List Op} {i : Nat} {ok : Bool} (h : Run init os s)
    (he : step s (.accUse i ok) = .ok s') :
    s'.conns = (s.nextC, s.lctx i) :: s.conns ∨ (s'.conns = s.conns ∧ ok = false ∧ s.lctx i ≠ none) := by
  have hi := run_inv h
  simp only [step] at he
  split at he
  · rename_i p hs
    have hl := hi.shape.acc i p hs
    have hv := touch_inv he
    rw [hl]
    unfold accept at hv
    split at hv
    · cases hv; exact Or.inl rfl
    · split at hv
      · cases hv
      · split at hv
        · cases hv; exact Or.inl rfl
        · rename_i hok; cases hv; exact Or.inr ⟨rfl, by simpa using hok, by simp⟩
  · cases he

/-- all that is set or under way is a context -/
structure Tls (i : Nat) (s : St) : Prop where
  set : ∀ c, s.set = .assign c ∨ s.set = .lock c ∨ (∃ rest, s.set = .visit c rest) → c.isSome
  sctx : s.sctx.isSome
  post : ∀ e ∈ s.posted, e.2.isSome
  lctx : s.lctx i = none → s.nextL ≤ i

theorem step_tls {i : Nat} {s s' : St} {o : Op} (h : Tls i s) (he : step s o = .ok s') : Tls i s' := by
  obtain ⟨a1, a2, a3, a4⟩ := h
  cases o with
  | newCtx => cases he; exact ⟨a1, a2, a3, a4⟩
  | extRef d =>
    simp only [step] at he
    split at he
    · split at he
      · rename_i h1
        obtain ⟨r, hr⟩ := addRefOpt_fields h1
        subst hr; cases he; exact ⟨a1, a2, a3, a4⟩
      · rename_i hne; rw [he] at hne; exact absurd rfl (hne _)
    · cases he
  | extRelease d =>
    simp only [step] at he
    split at he
    · obtain ⟨r, sr, f, sf, hr⟩ := release_fields he
      subst hr; exact ⟨a1, a2, a3, a4⟩
    · cases he
  | ownRef =>
    simp only [step] at he
    split at he
    · have := touch_inv he; cases this; exact ⟨a1, a2, a3, a4⟩
    · cases he
  | ownRelease =>
    simp only [step] at he
    split at he
    · obtain ⟨r, sr, f, sf, x, y, hr⟩ := srvRelease_fields he
      subst hr; exact ⟨a1, a2, a3, a4⟩
    · cases he
  | setBegin d =>
    simp only [step] at he
    split at he
    · have h1 := touch_inv he
      obtain ⟨e, hh⟩ := handOver_eq s d
      rw [hh] at h1
      rcases setEntry_fields h1 with ⟨h, _⟩ | ⟨hn, r, sr, f, sf, h⟩
      · subst h; exact ⟨a1, a2, a3, a4⟩
      · subst h
        refine ⟨?_, a2, a3, a4⟩
        intro c hc
        have hcd : c = d := by rcases hc with h | h | ⟨r, h⟩ <;> cases h; rfl
        subst hcd
        cases c with
        | none => exact absurd ⟨a2, rfl⟩ hn
        | some c => rfl
    · cases he
  | bindBegin d a =>
    simp only [step] at he
    split at he
    · have h1 := touch_inv he
      obtain ⟨e, hh⟩ := handOver_eq s d
      rw [hh] at h1
      split at h1
      · cases h1; exact ⟨a1, a2, a3, a4⟩
      · split at h1
        · split at h1
          · rename_i s2 h3
            obtain ⟨r, sr, f, sf, h4⟩ := releaseOpt_fields h3
            subst h4; cases h1; exact ⟨a1, a2, a3, a4⟩
          · rename_i hne; rw [h1] at hne; exact absurd rfl (hne _)
        · split at h1
          · rename_i s2 h3
            cases h1
            rcases setEntry_fields h3 with ⟨h, _⟩ | ⟨hn, r, sr, f, sf, h⟩
            · subst h; exact ⟨a1, a2, a3, a4⟩
            · subst h
              refine ⟨?_, a2, a3, a4⟩
              intro c hc
              have hcd : c = d := by rcases hc with h | h | ⟨r, h⟩ <;> cases h; rfl
              subst hcd
              cases c with
              | none => exact absurd ⟨a2, rfl⟩ hn
              | some c => rfl
          · rename_i hne; rw [h1] at hne; exact absurd rfl (hne _)
    · cases he
  | setAssign =>
    simp only [step] at he
    split at he
    · rename_i d hs
      have := touch_inv he; cases this
      have hd := a1 d (Or.inl hs)
      refine ⟨?_, hd, a3, a4⟩
      intro c hc
      rcases hc with h | h | ⟨r, h⟩ <;> cases h; exact hd
    · cases he
  | setLock =>
    simp only [step] at he
    split at he
    · rename_i d hs
      have := touch_inv he; cases this
      have hd := a1 d (Or.inr (Or.inl hs))
      refine ⟨?_, a2, a3, a4⟩
      intro c hc
      rcases hc with h | h | ⟨r, h⟩ <;> cases h; exact hd
    · cases he
  | setVisit =>
    simp only [step] at he
    split at he
    · rename_i d j rest hs
      have hv := touch_inv he
      have hd := a1 d (Or.inr (Or.inr ⟨_, hs⟩))
      have hset : ∀ c, SetPc.visit d rest = .assign c ∨ SetPc.visit d rest = .lock c ∨ (∃ r, SetPc.visit d rest = .visit c r) → c.isSome := by
        intro c hc
        rcases hc with h | h | ⟨r, h⟩ <;> cases h; exact hd
      unfold visitOne at hv
      split at hv
      · cases hv
      · split at hv
        · rename_i s1 h1
          obtain ⟨r, hr⟩ := addRefOpt_fields h1
          subst hr
          split at hv
          · split at hv
            · rename_i s2 h2
              obtain ⟨r', sr, f, sf, hr⟩ := releaseOpt_fields h2
              subst hr
              cases hv
              refine ⟨hset, a2, a3, ?_⟩
              intro hn
              dsimp only at hn ⊢
              by_cases hij : i = j
              · subst hij; rw [upd_same] at hn; rw [hn] at hd; cases hd
              · rw [upd_ne _ _ hij] at hn; exact a4 hn
            · rename_i hne; rw [hv] at hne; exact absurd rfl (hne _)
          · cases hv
            refine ⟨hset, a2, ?_, a4⟩
            intro e he'
            rcases List.mem_cons.1 he' with h | h
            · subst h; exact hd
            · exact a3 e h
        · rename_i hne; rw [hv] at hne; exact absurd rfl (hne _)
    · cases he
  | setEnd =>
    simp only [step] at he
    split at he
    · have := touch_inv he; cases this
      refine ⟨?_, a2, a3, a4⟩
      intro c hc
      rcases hc with h | h | ⟨r, h⟩ <;> cases h
    · cases he
  | lisInit =>
    simp only [step] at he
    split at he
    · have := touch_inv he; cases this
      refine ⟨a1, a2, a3, ?_⟩
      intro hn
      dsimp only at hn ⊢
      by_cases hij : i = s.nextL
      · subst hij; rw [upd_same] at hn; rw [hn] at a2; cases a2
      · rw [upd_ne _ _ hij] at hn; have := a4 hn; omega
    · cases he
  | lisRef =>
    simp only [step] at he
    split at he
    · split at he
      · rename_i s1 h1
        obtain ⟨r, hr⟩ := addRefOpt_fields h1
        subst hr
        cases he; exact ⟨a1, a2, a3, a4⟩
      · rename_i hne; rw [he] at hne; exact absurd rfl (hne _)
    · cases he
  | lisAppend =>
    simp only [step] at he
    split at he
    · split at he
      · cases he
      · have := touch_inv he; cases this; exact ⟨a1, a2, a3, a4⟩
    · cases he
  | setStart =>
    simp only [step] at he
    split at he
    · have := touch_inv he; cases this; exact ⟨a1, a2, a3, a4⟩
    · cases he
  | clearStart =>
    simp only [step] at he
    split at he
    · have := touch_inv he; cases this; exact ⟨a1, a2, a3, a4⟩
    · cases he
  | accRead j =>
    simp only [step] at he
    split at he
    · cases he; exact ⟨a1, a2, a3, a4⟩
    · cases he
  | accUse j ok =>
    simp only [step] at he
    split at he
    · have hv := touch_inv he
      unfold accept at hv
      split at hv
      · cases hv; exact ⟨a1, a2, a3, a4⟩
      · split at hv
        · cases hv
        · split at hv <;> cases hv <;> exact ⟨a1, a2, a3, a4⟩
    · cases he
  | runPosted k =>
    simp only [step] at he
    split at he
    · rename_i e hk
      have hm : e ∈ s.posted := List.mem_of_getElem? hk
      unfold runOne at he
      split at he
      · cases he
      · split at he
        · rename_i s1 h1
          obtain ⟨r, sr, f, sf, hr⟩ := releaseOpt_fields h1
          subst hr
          cases he
          refine ⟨a1, a2, fun x hx => a3 x (List.mem_of_mem_eraseIdx hx), ?_⟩
          intro hn
          dsimp only at hn ⊢
          by_cases hij : i = e.1
          · subst hij; rw [upd_same] at hn; have := a3 e hm; rw [hn] at this; cases this
          · rw [upd_ne _ _ hij] at hn; exact a4 hn
        · rename_i hne; rw [he] at hne; exact absurd rfl (hne _)
      · cases he
    · cases he
  | dUnlink j =>
    simp only [step] at he
    split at he
    · have := touch_inv he; cases this; exact ⟨a1, a2, a3, a4⟩
    · cases he
  | dRel j =>
    simp only [step] at he
    split at he
    · obtain ⟨r, sr, f, sf, x, y, hr⟩ := srvRelease_fields he
      subst hr; exact ⟨a1, a2, a3, a4⟩
    · cases he
  | dFree j =>
    simp only [step] at he
    split at he
    · obtain ⟨r, sr, f, sf, hr⟩ := releaseOpt_fields he
      subst hr; exact ⟨a1, a2, a3, a4⟩
    · cases he
  | connDestroy k =>
    simp only [step] at he
    split at he
    · unfold connDrop at he
      split at he
      · obtain ⟨r, sr, f, sf, x, y, hr⟩ := srvRelease_fields he
        subst hr; exact ⟨a1, a2, a3, a4⟩
      · split at he
        · cases he
        · obtain ⟨r, sr, f, sf, x, y, hr⟩ := srvRelease_fields he
          subst hr; exact ⟨a1, a2, a3, a4⟩
    · cases he

/-- **C52.**  Once the server has a context and no update to "none" is pending, a listener that has a context, or is added later, never makes a
plain connection again. -/
theorem sslctx_stays_tls {s s' : St} {os os' : List Op} {i : Nat} (_h : Run init os s) (hs : s.sctx.isSome) (hset : s.set = .idle)
    (hp : ∀ j, (j, none) ∉ s.posted) (hl : s.nextL ≤ i ∨ (s.lctx i).isSome) (hr : Run s os' s') :
    s'.sctx.isSome ∧ (i < s'.nextL → (s'.lctx i).isSome) := by
  have h0 : Tls i s := by
    refine ⟨?_, hs, ?_, ?_⟩
    · intro c hc; rw [hset] at hc; rcases hc with h | h | ⟨r, h⟩ <;> cases h
    · rintro ⟨j, p⟩ hm
      cases p with
      | none => exact absurd hm (hp j)
      | some c => rfl
    · intro hn
      rcases hl with h | h
      · exact h
      · rw [hn] at h; cases h
  have : Tls i s' := by
    clear hs hset hp hl _h
    induction hr with
    | nil => exact h0
    | cons _ he _ ih => exact ih (step_tls h0 he)
  refine ⟨this.sctx, fun hi => ?_⟩
  cases hc : s'.lctx i with
  | none => have := this.lctx hc; omega
  | some c => rfl

/-- **C52.**  A pending update runs as soon as the listener's thread gets to it, and then the listener has that context. -/
theorem sslctx_update_runs {s : St} {os : List Op} {k i : Nat} {p : Option Nat} (h : Run init os s) (hk : s.posted[k]? = some (i, p))
    (hs : s.stage i = .idle) : ∃ s', step s (.runPosted k) = .ok s' ∧ s'.lctx i = p ∧ s'.posted = s.posted.eraseIdx k := by
  have hne := sslctx_no_ub (o := .runPosted k) h trivial
  simp only [step, hk, runOne, hs] at hne ⊢
  split at hne
  · rename_i s1 h1
    obtain ⟨r, sr, f, sf, hr⟩ := releaseOpt_fields h1
    refine ⟨_, rfl, upd_same _ _ _, ?_⟩
    rw [hr]
  · rename_i r hr
    exfalso
    cases hx : releaseOpt { s with posted := s.posted.eraseIdx k } (s.lctx i) with
    | ok s1 => exact hr _ hx
    | disabled =>
      cases hl : s.lctx i with
      | none => rw [hl] at hx; cases hx
      | some c =>
        rw [hl] at hx
        simp only [releaseOpt, release] at hx
        split at hx
        · cases hx
        · split at hx
          · split at hx <;> cases hx
          · cases hx
    | ub => exact hne hx

/-- **C52.**  `kserver_bind` fails exactly if a TLS server is given no context or the address is bad; then server and listeners keep their
contexts, and the reference it was given is released. -/
theorem sslctx_bind_result {s s' : St} {os : List Op} {c : Option Nat} {a : Bool} (h : Run init os s)
    (he : step s (.bindBegin c a) = .ok s') :
    (s'.binds = false :: s.binds ∧ ((s.ssl = true ∧ c = none) ∨ a = false) ∧ s'.sctx = s.sctx ∧ s'.lctx = s.lctx ∧ s'.set = .idle ∧
        s'.posted = s.posted ∧ ∀ d, s'.refs d + (if c = some d then 1 else 0) = s.refs d ∧
          s'.ext d + (if c = some d then 1 else 0) = s.ext d) ∨
    (s'.binds = true :: s.binds ∧ ¬ ((s.ssl = true ∧ c = none) ∨ a = false) ∧ (s'.ssl = (s.ssl || c.isSome)) ∧
        (s'.set = .assign c ∨ (s.sctx.isSome ∧ c = none ∧ s'.sctx = s.sctx ∧ s'.set = .idle))) := by
  have hi := run_inv h
  simp only [step] at he
  split at he
  · rename_i hx
    obtain ⟨ho, hset, hg⟩ := hx
    have h1 := touch_inv he
    split at h1
    · rename_i h2; cases h1
      refine Or.inl ⟨rfl, Or.inl h2, rfl, rfl, hset, rfl, fun d => ?_⟩
      rw [h2.2]; simp
    · rename_i h2
      split at h1
      · rename_i ha
        have hc := handOver_core hi hg
        obtain ⟨e, hh⟩ := handOver_eq s c
        have hh2 := hh
        rw [hh] at hc h1
        obtain ⟨r, sr, f, sf, h4, h5⟩ := releaseOpt_core (s := { s with ext := e, ssl := s.ssl || c.isSome }) hc
        rw [h4] at h1
        cases h1
        refine Or.inl ⟨rfl, Or.inr ha, rfl, rfl, hset, rfl, fun d => ⟨?_, ?_⟩⟩
        · have h6 := h5.rf d
          have h7 := hc.rf d
          simp only [plusO, ind] at h7
          have h8 : holders { s with ext := e } d = holders { s with ext := e, ssl := s.ssl || c.isSome } d := rfl
          dsimp only at h6 h7 ⊢
          omega
        · have he2 : e = (handOver s c).ext := by rw [hh2]
          dsimp only
          rw [he2]
          cases c with
          | none => simp [handOver]
          | some c =>
            simp only [mayGive, decide_eq_true_eq] at hg
            simp only [handOver, Option.some.injEq]
            by_cases hd : d = c
            · subst hd; rw [upd_same, if_pos rfl]; omega
            · rw [upd_ne _ _ hd, if_neg (fun h => hd h.symm)]; omega
      · rename_i ha
        have hnot : ¬ ((s.ssl = true ∧ c = none) ∨ a = false) := by
          rintro (h | h)
          · exact h2 h
          · exact ha h
        split at h1
        · rename_i s2 h3
          cases h1
          obtain ⟨e, hh⟩ := handOver_eq s c
          rw [hh] at h3
          rcases setEntry_fields h3 with ⟨h, h4⟩ | ⟨hn, r, sr, f, sf, h⟩
          · subst h; exact Or.inr ⟨rfl, hnot, rfl, Or.inr ⟨h4.1, h4.2, rfl, hset⟩⟩
          · subst h; exact Or.inr ⟨rfl, hnot, rfl, Or.inl rfl⟩
        · rename_i hne; rw [h1] at hne; exact absurd rfl (hne _)
  · cases he

/-! ## Non-vacuity -/

/-- the discipline, decided -/
def discB (s : St) : Op → Bool
  | .setBegin _ => s.lis = .idle
  | .bindBegin _ _ => s.lis = .idle
  | .lisInit => s.set = .idle
  | .setVisit => s.start || (match s.set with
    | .visit _ (i :: _) => s.stage i = .idle
    | _ => true)
  | .dFree i => s.posted.all (fun e => e.1 ≠ i)
  | _ => true

theorem disc_of_discB {s : St} {o : Op} (h : discB s o = true) : Disc s o := by
  cases o <;> simp only [discB, Disc, decide_eq_true_eq] at * <;> try exact h
  · rw [Bool.or_eq_true] at h
    rcases h with h | h
    · exact Or.inl h
    · right
      intro c i rest hs
      rw [hs] at h; simpa using h
  · intro e he hi
    have := List.all_eq_true.1 h e he
    simp [hi] at this

def runB (s : St) : List Op → Option St
  | [] => some s
  | o :: os => if discB s o then (match step s o with
    | .ok s1 => runB s1 os
    | _ => none) else none

theorem run_of_runB {s s' : St} {os : List Op} (h : runB s os = some s') : Run s os s' := by
  induction os generalizing s with
  | nil => cases h; exact .nil _
  | cons o os ih =>
    simp only [runB] at h
    split at h
    · rename_i hd
      split at h
      · rename_i s1 he; exact .cons (disc_of_discB hd) he (ih h)
      · cases h
    · cases h

/-- what is looked at in the examples -/
structure Obs where
  sctx : Option Nat
  lctx : List (Option Nat)
  refs : List Nat
  freed : List Nat
  sslFreed : List Nat
  conns : List (Nat × Option Nat)
  posted : List (Nat × Option Nat)
  srvFreed : Nat
  binds : List Bool
  deriving DecidableEq

def obs (s : St) : Obs :=
  { sctx := s.sctx, lctx := (List.range s.nextL).map s.lctx, refs := (List.range s.next).map s.refs,
    freed := (List.range s.next).map s.freed, sslFreed := (List.range s.next).map s.sslFreed, conns := s.conns, posted := s.posted,
    srvFreed := s.srvFreed, binds := s.binds }

def listen : List Op := [.lisInit, .lisRef, .lisAppend]

/-- `kserver_bind` with context 0, two listeners, start, a connection, a new context 1, the updates, a second connection -/
def history : List Op :=
  [.newCtx, .bindBegin (some 0) true, .setAssign, .setLock, .setEnd] ++ listen ++ listen ++
  [.setStart, .accRead 0, .accUse 0 true, .newCtx, .setBegin (some 1), .setAssign, .setLock, .setVisit, .setVisit, .setEnd,
   .runPosted 0, .runPosted 0, .accRead 1, .accUse 1 true]

/-- both listeners have the new context; the old one is freed, but its OpenSSL part stays for the first connection -/
example : (runB init history).map obs = some
    { sctx := some 1, lctx := [some 1, some 1], refs := [0, 3], freed := [1, 0], sslFreed := [0, 0], conns := [(1, some 1), (0, some 0)],
      posted := [], srvFreed := 0, binds := [true] } := by decide +kernel

def teardown : List Op :=
  [.clearStart, .dUnlink 0, .dRel 0, .dFree 0, .dUnlink 1, .ownRelease, .connDestroy 1, .connDestroy 0, .dRel 1, .dFree 1]

/-- and everything is freed in the end (the hypotheses of `sslctx_nothing_leaked`) -/
example : (runB init (history ++ teardown)).map obs = some
    { sctx := some 1, lctx := [some 1, some 1], refs := [0, 0], freed := [1, 1], sslFreed := [1, 1], conns := [], posted := [],
      srvFreed := 1, binds := [true] } := by decide +kernel

/-- an address that cannot be parsed: the context that was handed over is released -/
example : (runB init [.newCtx, .bindBegin (some 0) false]).map obs = some
    { sctx := none, lctx := [], refs := [0], freed := [1], sslFreed := [1], conns := [], posted := [], srvFreed := 0, binds := [false] } := by
  decide +kernel

/-! ## Findings -/

def isUb : Res St → Bool
  | .ub => true
  | _ => false

def setCtx (c : Option Nat) (n : Nat) : List Op := [.setBegin c, .setAssign, .setLock] ++ List.replicate n .setVisit ++ [.setEnd]

/-- **Finding (C52).** Two contexts set one after the other on a started server: the updates are delivered newest first (see C30), so the listener
ends with the older one for ever. -/
theorem sslctx_two_updates_older_wins :
    (runB init ([.newCtx, .newCtx] ++ listen ++ [.setStart] ++ setCtx (some 0) 1 ++ setCtx (some 1) 1 ++ [.runPosted 0, .runPosted 0])).map
      (fun s => (s.sctx, s.lctx 0, s.posted)) = some (some 1, some 0, []) := by decide +kernel

/-- **Finding (C52).** The same with "no context" first: a started plain server is bound again without TLS and then given a context; its listener
goes on serving plain connections although the server has a context. -/
theorem sslctx_tls_server_serves_plain :
    (runB init ([.newCtx] ++ listen ++ [.setStart] ++ setCtx none 1 ++ setCtx (some 0) 1 ++
      [.runPosted 0, .runPosted 0, .accRead 0, .accUse 0 true])).map
      (fun s => (s.sctx, s.lctx 0, s.conns)) = some (some 0, none, [(0, none)]) := by decide +kernel

/-- **Finding (C52).** A listener that is destroyed (an accept error is enough) while an update is pending: the update writes to the freed
listener. -/
theorem sslctx_update_of_freed_listener :
    (run step init ([.newCtx] ++ listen ++ [.setStart] ++ setCtx (some 0) 1 ++ [.dUnlink 0, .dRel 0, .dFree 0])).map
      (fun s => isUb (step s (.runPosted 0))) = some true := by decide +kernel

/-- **Finding (C52).** `kserver_listen` reads the server's context before `ss_lock` is taken: if another thread sets a context meanwhile, the new
listener refers to a freed one. -/
theorem sslctx_listen_races_set :
    (run step init ([.newCtx, .newCtx, .ownRef] ++ setCtx (some 0) 0 ++ [.lisInit, .setBegin (some 1)])).map
      (fun s => isUb (step s .lisRef)) = some true := by decide +kernel

/-- **Finding (C52).** After `kserver_close` (the listeners still run down on their own threads) `kserver_set_ssl_ctx` replaces their contexts directly
instead of posting: a connection being made uses a freed context. -/
theorem sslctx_set_after_close_races_accept :
    (run step init ([.newCtx, .newCtx] ++ setCtx (some 0) 0 ++ listen ++ [.setStart, .clearStart, .accRead 0] ++ setCtx (some 1) 1)).map
      (fun s => isUb (step s (.accUse 0 true))) = some true := by decide +kernel

/-- **Finding (C52).** A TLS bind that fails for its address marks the server as TLS: a later bind without a context is refused although the
server has none. -/
theorem sslctx_failed_bind_refuses_plain :
    (runB init [.newCtx, .bindBegin (some 0) false, .bindBegin none true]).map (fun s => (s.sctx, s.binds)) =
      some (none, [false, false]) := by decide +kernel

end Kasync.SslCtx
