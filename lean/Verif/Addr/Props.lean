import Verif.Addr.Inv

/-! # Address cache theorems: C33 -/

namespace Kasync.Addr

/-- **C33.** Every lookup request is, at every point, in exactly one place: waiting for a resolution, being answered, or answered; so its callback
is called exactly once.  Request numbers are distinct. -/
theorem addr_request_exactly_once (s : St) (h : Reachable step ainit s) :
    s.reqs.Perm (waiting s ++ s.publishing.map (·.1) ++ s.callbacks.map (·.1) ++ s.calling.map (·.1) ++ s.done.map (·.1)) ∧
    (s.reqs.map Req.id).Nodup := by
  have hi := inv_of_reachable h
  have hm : ∀ (r : Req) (l : List (Req × Option Nat)), (l.map (·.1)).count r = cntR r l := fun r l => by
    rw [List.count, List.countP_map]; rfl
  have hw : ∀ r, (waiting s).count r = tsum (gq r) s.tree (s.starting ++ s.jobs) := fun r => by
    unfold waiting tsum
    rw [List.count_flatMap]; rfl
  refine ⟨List.perm_iff_count.2 (fun r => ?_), by rw [hi.ids]; exact List.nodup_range⟩
  rw [hi.reqs r, List.count_append, List.count_append, List.count_append, List.count_append, hm, hm, hm, hm, hw]

/-- **C33.** Each answer belongs to the name asked for: the address passed to a callback was resolved for the request's own key. -/
theorem addr_answer_matches (s : St) (h : Reachable step ainit s) (x : Req × Option Nat)
    (hx : x ∈ s.callbacks ++ s.calling ++ s.done) (a : Nat) (ha : x.2 = some a) : s.owner a = x.1.key := by
  refine ((inv_of_reachable h).ownx x ?_ a ha).1
  simp only [List.mem_append] at hx ⊢
  rcases hx with (hx | hx) | hx
  · exact .inl (.inl (.inr hx))
  · exact .inl (.inr hx)
  · exact .inr hx

/-- **C33.** Concurrent requests share one resolution: a name has at most one first resolution under way, exactly when it is in the cache
and not resolved yet, and all requests waiting in that entry are for that name. -/
theorem addr_one_resolution (s : St) (h : Reachable step ainit s) :
    (s.starting ++ s.jobs).Nodup ∧ (∀ k, k ∈ s.starting ++ s.jobs ↔ ∃ n, s.tree k = some n ∧ n.cached = false) ∧
    (∀ k n r, s.tree k = some n → r ∈ n.queue → n.cached = false ∧ r.key = k) := by
  have hi := inv_of_reachable h
  refine ⟨hi.pend_nodup, hi.pend_iff, fun k n r hn hr => ⟨?_, hi.ownq k n r hn hr⟩⟩
  cases hc : n.cached with
  | false => rfl
  | true => rw [hi.cachedQ k n hn hc] at hr; cases hr

/-- **C33.** A request for a resolved name is answered at once with the most recent successful result (unless ten refreshes in a row have
failed since), and starts no resolution; a request for an unknown or unresolved name is queued, starting a resolution only if the name is unknown. -/
theorem addr_find_exact (s s' : St) (h : Reachable step ainit s) (k : Nat) (now : Int) (t : Bool) (he : step s (.find k now t) = .ok s') :
    (∀ n, s.tree k = some n → n.cached = true →
      s'.calling = s.calling ++ [(⟨s.reqs.length, k⟩, best n.hist)] ∧ s'.starting = s.starting ∧ s'.jobs = s.jobs ∧
      (∃ n', s'.tree k = some n' ∧ n'.hist = n.hist ∧ n'.lastTime = now)) ∧
    (∀ n, s.tree k = some n → n.cached = false →
      s'.calling = s.calling ∧ s'.starting = s.starting ∧ s'.jobs = s.jobs ∧
      (∃ n', s'.tree k = some n' ∧ n'.queue = ⟨s.reqs.length, k⟩ :: n.queue)) ∧
    (s.tree k = none → s'.calling = s.calling ∧ s'.starting = s.starting ++ [k] ∧ s'.jobs = s.jobs ∧
      (∃ n', s'.tree k = some n' ∧ n'.queue = [⟨s.reqs.length, k⟩])) := by
  have hi := inv_of_reachable h
  rcases find_ok he with ⟨hn, rfl⟩ | ⟨n, hn, hc, rfl⟩ | ⟨n, ρ, rf, lv, hn, hc, _, hρ, rfl⟩
  · refine ⟨fun n hn' => ?_, fun n hn' => ?_, fun _ => ⟨rfl, rfl, rfl, _, upd_same .., rfl⟩⟩
    · rw [hn] at hn'; cases hn'
    · rw [hn] at hn'; cases hn'
  · refine ⟨fun m hm hmc => ?_, fun m hm hmc => ?_, fun hx => ?_⟩
    · rw [hn] at hm; cases hm; rw [hc] at hmc; cases hmc
    · rw [hn] at hm; cases hm; exact ⟨rfl, rfl, rfl, _, upd_same .., rfl⟩
    · rw [hn] at hx; cases hx
  · refine ⟨fun m hm hmc => ?_, fun m hm hmc => ?_, fun hx => ?_⟩
    · rw [hn] at hm; cases hm
      refine ⟨?_, rfl, rfl, _, upd_same .., rfl, rfl⟩
      rw [← (hi.hist k n hn hc).served]
    · rw [hn] at hm; cases hm; rw [hc] at hmc; cases hmc
    · rw [hn] at hx; cases hx

/-- **C33.** Looking up a resolved name marks the entry as most recently used and starts a refresh in the background exactly when the
last one was more than 30 seconds ago (and the worker accepts it); the time of the last refresh is updated then, and only then. -/
theorem addr_refresh_policy (s s' : St) (h : Reachable step ainit s) (k : Nat) (now : Int) (t : Bool) (n : Node)
    (hn : s.tree k = some n) (hc : n.cached = true) (o : Op) (ho : o = .find k now t ∨ o = .findCache k now t) (he : step s o = .ok s') :
    s'.lru = s.lru.erase k ++ [k] ∧
    s'.refresh = (if 30 < now - n.lastVerify ∧ t = true then s.refresh ++ [k] else s.refresh) ∧
    ∃ n', s'.tree k = some n' ∧ n'.lastTime = now ∧ n'.hist = n.hist ∧
      n'.lastVerify = (if 30 < now - n.lastVerify then now else n.lastVerify) := by
  have ht : ∀ s0 : St, s0.tree = s.tree → s0.lru = s.lru → s0.refresh = s.refresh →
      (touch s0 k n now t).lru = s.lru.erase k ++ [k] ∧
      (touch s0 k n now t).refresh = (if 30 < now - n.lastVerify ∧ t = true then s.refresh ++ [k] else s.refresh) ∧
      ∃ n', (touch s0 k n now t).tree k = some n' ∧ n'.lastTime = now ∧ n'.hist = n.hist ∧
        n'.lastVerify = (if 30 < now - n.lastVerify then now else n.lastVerify) := by
    intro s0 e1 e2 e3
    unfold touch
    rw [if_pos hc]
    dsimp only
    by_cases hf : now - n.lastVerify > freshTime
    · have hf' : 30 < now - n.lastVerify := hf
      rw [if_pos hf, e2, e3]
      refine ⟨rfl, ?_, _, upd_same .., rfl, rfl, ?_⟩
      · cases t <;> simp [hf']
      · simp [hf']
    · have hf' : ¬ 30 < now - n.lastVerify := hf
      rw [if_neg hf, e2]
      refine ⟨rfl, ?_, _, upd_same .., rfl, rfl, ?_⟩
      · simp [hf', e3]
      · simp [hf']
  have hb : ∀ (s0 s1 : St) (x : Option Nat), incOpt s0 x = .ok s1 → s1.lru = s0.lru ∧ s1.refresh = s0.refresh ∧ s1.tree = s0.tree := by
    intro s0 s1 x hx
    obtain ⟨ρ, rfl, _⟩ := incOpt_ok hx
    exact ⟨rfl, rfl, rfl⟩
  rcases ho with rfl | rfl
  · simp only [step, find, hn, hc, if_true] at he
    obtain ⟨s1, h1, h2⟩ := bind_ok he
    obtain ⟨a, b, c⟩ := hb _ _ _ h1
    cases h2
    dsimp only
    rw [a, b, c]
    exact ht _ rfl rfl rfl
  · simp only [step, findCache, hn, hc, if_true] at he
    obtain ⟨s1, h1, h2⟩ := bind_ok he
    obtain ⟨a, b, c⟩ := hb _ _ _ h1
    cases h2
    dsimp only
    rw [a, b, c]
    exact ht _ rfl rfl rfl

/-- **C33.** `kgl_find_cache_addr` never waits and starts no first resolution: it returns a new reference to the result of the latest resolution of a
resolved name, or NULL when that failed or the name is unknown or unresolved. -/
theorem addr_find_cache_exact (s s' : St) (h : Reachable step ainit s) (k : Nat) (now : Int) (t : Bool)
    (he : step s (.findCache k now t) = .ok s') :
    s'.held = s.held ++ (match s.tree k with
      | some n => if n.cached then (n.hist.headD none).toList else []
      | none => []) ∧
    s'.reqs = s.reqs ∧ s'.starting = s.starting ∧ s'.jobs = s.jobs ∧ s'.calling = s.calling ∧ s'.callbacks = s.callbacks := by
  have hi := inv_of_reachable h
  simp only [step, findCache] at he
  split at he
  · rename_i hn; cases he; exact ⟨by simp [hn], rfl, rfl, rfl, rfl, rfl⟩
  · rename_i n hn
    obtain ⟨n', rf, et, -, -⟩ := touch_eq s k n now t
    rw [et] at he
    cases hc : n.cached with
    | false =>
      simp only [hc, Bool.false_eq_true, if_false] at he
      cases he; exact ⟨by simp [hn, hc], rfl, rfl, rfl, rfl, rfl⟩
    | true =>
      simp only [hc, if_true] at he
      obtain ⟨s1, h1, h2⟩ := bind_ok he
      obtain ⟨ρ, rfl, _⟩ := incOpt_ok h1
      cases h2
      refine ⟨?_, rfl, rfl, rfl, rfl, rfl⟩
      simp only [hn, hc, if_true]
      rw [← (hi.hist k n hn hc).addr]
      cases n.addr <;> simp

/-- **C33.** What a resolution or refresh records: its result is appended to the entry's history (a refresh of an entry that was evicted
meanwhile starts a new one). -/
theorem addr_result_recorded (s s' : St) (h : Reachable step ainit s) (k : Nat) (f : Bool) :
    (step s (.resolved k f) = .ok s' → ∃ n, s'.tree k = some n ∧ n.cached = true ∧ n.hist = [if f then some s.naddr else none]) ∧
    (∀ now, step s (.refreshed k f now) = .ok s' → ∃ n, s'.tree k = some n ∧ n.cached = true ∧
      n.hist = (if f then some s.naddr else none) :: (match s.tree k with | some m => m.hist | none => [])) := by
  have hi := inv_of_reachable h
  constructor
  · intro he
    simp only [step] at he
    split at he
    · obtain ⟨n, ρ, hn, hc, ha, hl, hρ, rfl⟩ := resultOk_ok he
      refine ⟨_, upd_same .., rfl, ?_⟩
      dsimp only at hn ⊢
      rw [(hi.pendNode k n hn hc).2.2.2.1]
    · cases he
  · intro now he
    simp only [step] at he
    split at he
    · obtain ⟨n, ρ, hn, hc, hρ, rfl⟩ := updateCache_ok he (fun n hn => hi.naddr_not hn)
      refine ⟨_, upd_same .., by cases f <;> exact hc, ?_⟩
      rw [hn]
      dsimp only
      cases ht : s.tree k <;> cases f <;> simp [refreshedNode, refreshNode, ht]
    · cases he

/-- **C33.** The reported entry count is the number of resolved entries. -/
theorem addr_count_exact (s : St) (h : Reachable step ainit s) :
    s.count = s.lru.length ∧ s.lru.Nodup ∧ ∀ k, k ∈ s.lru ↔ ∃ n, s.tree k = some n ∧ n.cached = true := by
  have hi := inv_of_reachable h
  exact ⟨hi.cnt, hi.lru_nodup, hi.lru_iff⟩

/-- **C33.** An address has exactly as many references as holders (cached entries, callbacks under way, users): it is freed exactly when the last holder
lets go, and no holder ever has a freed address. -/
theorem addr_refs_exact (s : St) (h : Reachable step ainit s) (a : Nat) : s.ref a = holders s a := by
  rw [(inv_of_reachable h).refs a]
  unfold holders tsum cntA
  rw [List.countP_eq_length_filter, List.countP_eq_length_filter, List.count, List.countP_eq_length_filter]
  rfl

theorem tsum_ge (g : Option Node → Nat) (tree : Nat → Option Node) {l : List Nat} {k : Nat} (h : k ∈ l) : g (tree k) ≤ tsum g tree l := by
  rw [tsum_erase g tree k l h]; omega

theorem countP_pos_of_mem {x : Req × Option Nat} {l : List (Req × Option Nat)} (hx : x ∈ l) {a : Nat} (ha : x.2 = some a) : 0 < cntA a l :=
  List.countP_pos_iff.2 ⟨x, hx, by simp [ha]⟩

theorem node_refs_pos {s : St} (hi : Inv s) {k : Nat} {n : Node} (hn : s.tree k = some n) (hc : n.cached = true) (a : Nat) :
    ind n.addr a + ind n.last a ≤ s.ref a := by
  have h1 := tsum_ge (nodeRefs a) s.tree ((hi.lru_iff k).2 ⟨n, hn, hc⟩)
  rw [hn] at h1
  have h2 := gh_some a n
  have h3 := hi.refs a
  omega

theorem ind_self (x : Option Nat) {a : Nat} (h : x = some a) : ind x a = 1 := if_pos h

/-- dropping both references of a node does not fail -/
theorem dec2_run {s : St} {x y : Option Nat} (h : ∀ a, ind x a + ind y a ≤ s.ref a) : ∃ s1 s2, decOpt s x = .ok s1 ∧ decOpt s1 y = .ok s2 := by
  obtain ⟨s1, h1⟩ := decOpt_run (s := s) (x := x) (fun a ha => by
    have := h a; have := ind_self x ha; have := ind_nonneg y a; omega)
  obtain ⟨ρ, rfl, hρ⟩ := decOpt_ok h1
  obtain ⟨s2, h2⟩ := decOpt_run (s := { s with ref := ρ }) (x := y) (fun a ha => by
    have := h a; have := ind_self y ha; have := hρ a; dsimp only; omega)
  exact ⟨_, s2, h1, h2⟩

theorem flush_run {s : St} (now : Int) {fuel : Nat} (hi : Inv s) (hf : s.lru.length < fuel) : ∃ s', flushLoop now fuel s = .ok s' := by
  induction fuel generalizing s with
  | zero => omega
  | succ m ih =>
    unfold flushLoop
    cases hl : s.lru with
    | nil => exact ⟨s, rfl⟩
    | cons k r =>
      obtain ⟨n, hn, hc⟩ := (hi.lru_iff k).1 (by rw [hl]; simp)
      dsimp only
      rw [hn]
      dsimp only
      split
      · exact ⟨s, rfl⟩
      · obtain ⟨s1, s2, h1, h2⟩ := dec2_run (s := { s with tree := upd s.tree k none, lru := r }) (x := n.addr) (y := n.last)
          (node_refs_pos hi hn hc)
        rw [h1]
        simp only [bind]
        rw [h2]
        dsimp only
        obtain ⟨ρ1, rfl, e1⟩ := decOpt_ok h1
        obtain ⟨ρ2, rfl, e2⟩ := decOpt_ok h2
        exact ih (s := evict s k r ρ2) (hi.evict hl hn (fun a => by rw [e2]; dsimp only; rw [e1]))
          (by rw [hl] at hf; simp [evict] at hf ⊢; omega)

/-- **C33.** The only undefined behaviour the cache can run into is one of the two races: posting an answer whose address was already freed, and
finishing a refresh of a name that was evicted and requested again meanwhile. -/
theorem addr_only_failures (s : St) (h : Reachable step ainit s) (o : Op) (hu : step s o = .ub) :
    (∃ r a, o = .publish (r, some a) ∧ (r, some a) ∈ s.publishing ∧ s.ref a = 0) ∨
    (∃ k f now n, o = .refreshed k f now ∧ k ∈ s.refresh ∧ s.tree k = some n ∧ n.cached = false) := by
  have hi := inv_of_reachable h
  have pend : ∀ {k}, k ∈ s.starting ++ s.jobs → ∃ n, s.tree k = some n ∧ n.cached = false ∧ n.addr = none ∧ n.last = none := fun {k} hk => by
    obtain ⟨n, hn, hc⟩ := (hi.pend_iff k).1 hk
    have := hi.pendNode k n hn hc
    exact ⟨n, hn, hc, this.1, this.2.1⟩
  cases o with
  | find k now t =>
    exfalso
    simp only [step, find] at hu
    split at hu
    · cases hu
    · rename_i n hn
      obtain ⟨n', rf, et, -, -⟩ := touch_eq { s with reqs := s.reqs ++ [⟨s.reqs.length, k⟩] } k n now t
      rw [et] at hu
      split at hu
      · rename_i hc
        obtain ⟨s1, h1⟩ := incOpt_run (s := { s with reqs := s.reqs ++ [⟨s.reqs.length, k⟩], lru := s.lru.erase k ++ [k], tree := upd s.tree k (some n'), refresh := rf })
          (x := served n) (fun a ha => by
            have h1 := node_refs_pos hi hn hc a
            have h2 := ind_nonneg n.addr a
            have h3 := ind_nonneg n.last a
            have h4 : n.addr = some a ∨ n.last = some a := by
              unfold served at ha; split at ha
              · rename_i b hb; cases ha; exact .inl hb
              · exact .inr ha
            dsimp only
            rcases h4 with h4 | h4 <;> have := ind_self _ h4 <;> omega)
        rw [h1] at hu; cases hu
      · cases hu
  | findCache k now t =>
    exfalso
    simp only [step, findCache] at hu
    split at hu
    · cases hu
    · rename_i n hn
      obtain ⟨n', rf, et, -, -⟩ := touch_eq s k n now t
      rw [et] at hu
      split at hu
      · rename_i hc
        obtain ⟨s1, h1⟩ := incOpt_run (s := { s with lru := s.lru.erase k ++ [k], tree := upd s.tree k (some n'), refresh := rf })
          (x := n.addr) (fun a ha => by
            have h1 := node_refs_pos hi hn hc a
            have h3 := ind_nonneg n.last a
            have := ind_self _ ha
            dsimp only; omega)
        rw [h1] at hu; cases hu
      · cases hu
  | releaseHeld b =>
    exfalso
    simp only [step] at hu
    split at hu
    · rename_i hb
      obtain ⟨s1, h1⟩ := decOpt_run (s := { s with held := s.held.erase b }) (x := some b) (fun a ha => by
        cases ha
        have := hi.refs b
        have := List.count_pos_iff.2 hb
        dsimp only; omega)
      rw [h1] at hu; cases hu
    · cases hu
  | callDone x =>
    exfalso
    simp only [step] at hu
    split at hu
    · rename_i hx
      obtain ⟨s1, h1⟩ := decOpt_run (s := { s with calling := s.calling.erase x, done := s.done ++ [x] }) (x := x.2) (fun a ha => by
        have := hi.refs a
        have := countP_pos_of_mem hx ha
        dsimp only; omega)
      rw [h1] at hu; cases hu
    · cases hu
  | startJob k ok =>
    exfalso
    simp only [step] at hu
    split at hu
    · rename_i hk
      cases ok
      · obtain ⟨n, hn, hc, ha, hl⟩ := pend (k := k) (by simp [hk])
        simp [resultFail, hn, hc, ha, hl, decOpt, bind] at hu
      · cases hu
    · cases hu
  | timeout k =>
    exfalso
    simp only [step] at hu
    split at hu
    · rename_i hk
      obtain ⟨n, hn, hc, ha, hl⟩ := pend (k := k) (by simp [hk])
      simp [resultFail, hn, hc, ha, hl, decOpt, bind] at hu
    · cases hu
  | resolved k f =>
    exfalso
    simp only [step] at hu
    split at hu
    · rename_i hk
      obtain ⟨n, hn, hc, ha, hl⟩ := pend (k := k) (by simp [hk])
      cases f <;> simp [resultOk, hn, hc, ha, hl, incOpt, bind] at hu
    · cases hu
  | publish x =>
    simp only [step] at hu
    split at hu
    · rename_i hx
      obtain ⟨r, y⟩ := x
      cases y with
      | none => cases hu
      | some a =>
        left
        refine ⟨r, a, rfl, hx, ?_⟩
        simp only [incOpt] at hu
        split at hu
        · rename_i h0; have := hi.refs a; omega
        · cases hu
    · cases hu
  | deliver x =>
    exfalso
    simp only [step] at hu
    split at hu
    · rename_i hx
      obtain ⟨s1, h1⟩ := decOpt_run (s := { s with callbacks := s.callbacks.erase x, done := s.done ++ [x] }) (x := x.2) (fun a ha => by
        have := hi.refs a
        have := countP_pos_of_mem hx ha
        dsimp only; omega)
      rw [h1] at hu; cases hu
    · cases hu
  | refreshed k f now =>
    right
    simp only [step] at hu
    split at hu
    · rename_i hk
      refine ⟨k, f, now, ?_⟩
      cases ht : s.tree k with
      | none =>
        exfalso
        cases f <;> simp [updateCache, ht, decOpt, incOpt, bind, maxErr] at hu
      | some n =>
        refine ⟨n, rfl, hk, rfl, ?_⟩
        cases hc : n.cached with
        | false => rfl
        | true =>
          exfalso
          have hle := node_refs_pos hi ht hc
          have hna := hi.naddr_not ht
          obtain ⟨s1, h1⟩ := decOpt_run (s := { s with refresh := s.refresh.erase k, count := s.count, lru := s.lru.erase k ++ [k] }) (x := n.addr)
            (fun a ha => by have := hle a; have := ind_self _ ha; have := ind_nonneg n.last a; dsimp only; omega)
          obtain ⟨ρ1, e, hρ1⟩ := decOpt_ok h1
          simp only [updateCache, ht, Option.isNone_some, Option.getD_some, hc, Bool.not_true, Bool.false_eq_true, if_false] at hu
          rw [h1] at hu
          simp only [bind] at hu
          subst e
          have hlast : ∀ a, n.last = some a → 0 < ρ1 a := fun a ha => by
            have := hle a; have := ind_self _ ha; have := hρ1 a; dsimp only at this; omega
          cases f with
          | true =>
            simp only [if_true] at hu
            obtain ⟨s2, h2⟩ := decOpt_run (s := { s with refresh := s.refresh.erase k, count := s.count, lru := s.lru.erase k ++ [k], ref := upd ρ1 s.naddr 1, naddr := s.naddr + 1, owner := upd s.owner s.naddr k }) (x := n.last) (fun a ha => by
              have hne : a ≠ s.naddr := by rintro rfl; exact hna.2 ha
              dsimp only; rw [upd_ne _ _ hne]; exact hlast a ha)
            rw [h2] at hu
            obtain ⟨ρ2, e2, hρ2⟩ := decOpt_ok h2
            subst e2
            have hz : ind n.last s.naddr = 0 := if_neg hna.2
            have hp : ¬ ρ2 s.naddr ≤ 0 := by
              have := hρ2 s.naddr
              dsimp only at this
              rw [upd_same, hz] at this; omega
            simp [incOpt, hp] at hu
          | false =>
            simp only [Bool.false_eq_true, if_false] at hu
            split at hu
            · obtain ⟨s2, h2⟩ := decOpt_run (s := { s with refresh := s.refresh.erase k, count := s.count, lru := s.lru.erase k ++ [k], ref := ρ1 })
                (x := n.last) hlast
              rw [h2] at hu; cases hu
            · cases hu
    · cases hu
  | flush now =>
    exfalso
    obtain ⟨s', h'⟩ := flush_run now hi (Nat.lt_succ_self s.lru.length)
    simp only [step] at hu; rw [h'] at hu; cases hu

/-- what one flush does: a prefix of the list is evicted -/
theorem flush_split {s s' : St} {now : Int} {fuel : Nat} (hi : Inv s) (he : flushLoop now fuel s = .ok s') :
    ∃ gone, s.lru = gone ++ s'.lru ∧
      (∀ (i : Nat) k n, gone[i]? = some k → s.tree k = some n → 3600 ≤ now - n.lastTime ∨ (1048576 : Int) ≤ s.count - i) ∧
      (∀ k, s'.tree k = if k ∈ gone then none else s.tree k) ∧
      (∀ k n, s'.lru.head? = some k → s'.tree k = some n → now - n.lastTime < 3600 ∧ s'.count < 1048576) := by
  induction fuel generalizing s with
  | zero => cases he
  | succ m ih =>
    unfold flushLoop at he
    split at he
    · rename_i hl
      cases he
      exact ⟨[], rfl, fun i k n hk => by simp at hk, fun k => by simp, fun k n hk => by rw [hl] at hk; cases hk⟩
    · rename_i k r hl
      split at he
      · cases he
      · rename_i n hn
        split at he
        · rename_i hc
          cases he
          refine ⟨[], rfl, fun i k n hk => by simp at hk, fun k => by simp, fun k' n' hk hn' => ?_⟩
          rw [hl] at hk
          cases hk
          rw [hn] at hn'
          cases hn'
          exact hc
        · rename_i hc
          obtain ⟨s1, h1, he⟩ := bind_ok he
          obtain ⟨s2, h2, he⟩ := bind_ok he
          obtain ⟨ρ1, rfl, e1⟩ := decOpt_ok h1
          obtain ⟨ρ2, rfl, e2⟩ := decOpt_ok h2
          have hi' := hi.evict hl hn (ρ := ρ2) (fun a => by rw [e2]; dsimp only; rw [e1])
          obtain ⟨gone, g1, g2, g3, g4⟩ := ih (s := Addr.evict s k r ρ2) hi' he
          have hnd : (k :: r).Nodup := hl ▸ hi.lru_nodup
          have g1' : r = gone ++ s'.lru := g1
          refine ⟨k :: gone, by rw [hl, g1']; rfl, ?_, ?_, g4⟩
          · intro i k' n' hk' hn'
            cases i with
            | zero =>
              simp at hk'; subst hk'
              rw [hn] at hn'; cases hn'
              simp only [maxIdle, maxCount] at hc
              omega
            | succ j =>
              simp at hk'
              have hne : k' ≠ k := by
                rintro rfl
                have : k' ∈ gone := List.mem_of_getElem? hk'
                exact (List.nodup_cons.1 hnd).1 (g1' ▸ List.mem_append_left _ this)
              have := g2 j k' n' hk' (by show upd s.tree k none k' = _; rw [upd_ne _ _ hne]; exact hn')
              have hcnt : (Addr.evict s k r ρ2).count = s.count - 1 := rfl
              rw [hcnt] at this
              omega
          · intro k'
            rw [g3 k']
            by_cases hkk : k' = k
            · subst hkk
              have : (Addr.evict s k' r ρ2).tree k' = none := upd_same ..
              simp [this]
            · have : (Addr.evict s k r ρ2).tree k' = s.tree k' := upd_ne _ _ hkk
              simp [this, hkk]

/-- **C33.** A flush evicts entries from the least recently moved end only, each of them idle for an hour or while there are at least 2^20 entries,
and stops at the first entry for which neither holds; no other entry (in particular no pending one) changes. -/
theorem addr_flush_exact (s s' : St) (h : Reachable step ainit s) (now : Int) (he : step s (.flush now) = .ok s') :
    ∃ gone, s.lru = gone ++ s'.lru ∧
      (∀ (i : Nat) k n, gone[i]? = some k → s.tree k = some n → 3600 ≤ now - n.lastTime ∨ (1048576 : Int) ≤ s.count - i) ∧
      (∀ k, s'.tree k = if k ∈ gone then none else s.tree k) ∧
      (∀ k n, s'.lru.head? = some k → s'.tree k = some n → now - n.lastTime < 3600 ∧ s'.count < 1048576) :=
  flush_split (inv_of_reachable h) he

/-! ## Non-vacuity and findings -/

/-- two requests share one resolution; a third is served from the cache after a failed refresh; everything is released at the end -/
def demoOps : List Op :=
  [.find 7 0 true, .find 7 1 true, .startJob 7 true, .resolved 7 true, .publish (⟨1, 7⟩, some 0), .publish (⟨0, 7⟩, some 0),
   .deliver (⟨0, 7⟩, some 0), .deliver (⟨1, 7⟩, some 0), .findCache 7 40 true, .releaseHeld 0, .refreshed 7 false 41, .find 7 50 true,
   .callDone (⟨2, 7⟩, some 0), .flush 3650]

example : (run step ainit demoOps).map (fun s => (s.done, s.count, s.ref 0, (s.tree 7).isNone)) =
    some ([(⟨0, 7⟩, some 0), (⟨1, 7⟩, some 0), (⟨2, 7⟩, some 0)], 0, 0, true) := by rfl

/-- **Finding (C33).** The answer is posted without a reference of its own: when the entry is flushed between caching the result and posting
the answers (here because the entry was last used an hour before the resolver answered), the address is used after it was freed. -/
theorem addr_result_use_after_free :
    (run step ainit [.find 7 0 true, .startJob 7 true, .resolved 7 true, .flush 3600]).map
      (fun s => (s.ref 0, match step s (.publish (⟨0, 7⟩, some 0)) with | .ub => true | _ => false)) = some (0, true) := by
  rfl

/-- **Finding (C33).** A refresh that ends while the name is being resolved again (flushed and requested meanwhile) unlinks an entry that is
not in the list: it follows a NULL link. -/
theorem addr_refresh_of_pending_ub :
    (run step ainit [.find 7 0 true, .startJob 7 true, .resolved 7 true, .publish (⟨0, 7⟩, some 0), .deliver (⟨0, 7⟩, some 0),
      .findCache 7 40 true, .releaseHeld 0, .flush 4000, .find 7 4001 true]).map
      (fun s => match step s (.refreshed 7 true 4002) with | .ub => true | _ => false) = some true := by
  rfl

/-- **Finding (C33).** A refresh moves the entry to the end of the list without marking it used, so an entry idle for more than an hour
can hide behind a younger one and survive the flush. -/
theorem addr_flush_misses_idle :
    (run step ainit [.find 7 0 true, .startJob 7 true, .resolved 7 true, .publish (⟨0, 7⟩, some 0), .deliver (⟨0, 7⟩, some 0),
      .findCache 7 40 true, .releaseHeld 0, .find 8 3000 true, .startJob 8 true, .resolved 8 true, .refreshed 7 true 3001,
      .flush 5000]).map (fun s => (s.lru, s.tree 7 |>.map (fun n => decide (3600 ≤ 5000 - n.lastTime)))) = some ([8, 7], some true) := by
  rfl

end Kasync.Addr
