import Verif.Addr.Spec
import Verif.Addr.Lemmas

/-! # The invariant of the address cache -/

namespace Kasync.Addr

/-- number of entries of `l` with result `a` -/
def cntA (a : Nat) (l : List (Req × Option Nat)) : Nat := l.countP (fun x => decide (x.2 = some a))

/-- number of entries of `l` for request `r` -/
def cntR (r : Req) (l : List (Req × Option Nat)) : Nat := l.countP (fun x => decide (x.1 = r))

theorem cntA_append (a : Nat) (l m : List (Req × Option Nat)) : cntA a (l ++ m) = cntA a l + cntA a m := List.countP_append ..
theorem cntR_append (r : Req) (l m : List (Req × Option Nat)) : cntR r (l ++ m) = cntR r l + cntR r m := List.countP_append ..
theorem cntA_single (a : Nat) (x : Req × Option Nat) : (cntA a [x] : Int) = ind x.2 a := by
  unfold cntA ind; rw [List.countP_singleton]; by_cases h : x.2 = some a <;> simp [h]
theorem cntR_single (r : Req) (x : Req × Option Nat) : cntR r [x] = if x.1 = r then 1 else 0 := by
  unfold cntR; rw [List.countP_singleton]; by_cases h : x.1 = r <;> simp [h]
theorem cntA_erase (a : Nat) {l : List (Req × Option Nat)} {x : Req × Option Nat} (h : x ∈ l) :
    (cntA a l : Int) = ind x.2 a + cntA a (l.erase x) := by
  unfold cntA
  rw [(List.perm_cons_erase h).countP_eq, List.countP_cons]
  unfold ind; by_cases h : x.2 = some a <;> simp [h]; omega
theorem cntR_erase (r : Req) {l : List (Req × Option Nat)} {x : Req × Option Nat} (h : x ∈ l) :
    cntR r l = (if x.1 = r then 1 else 0) + cntR r (l.erase x) := by
  unfold cntR
  rw [(List.perm_cons_erase h).countP_eq, List.countP_cons]
  by_cases h : x.1 = r <;> simp [h]; omega
theorem cntR_map (r : Req) (q : List Req) (a : Option Nat) : cntR r (q.map (fun r => (r, a))) = q.count r := by
  unfold cntR
  rw [List.countP_map, List.count]
  congr 1

/-- count of a request in a node's queue -/
def gq (r : Req) (o : Option Node) : Nat := (queueOf o).count r

@[simp] theorem gq_none (r : Req) : gq r none = 0 := rfl
@[simp] theorem gq_some (r : Req) (n : Node) : gq r (some n) = n.queue.count r := rfl
theorem gh_some (a : Nat) (n : Node) : (nodeRefs a (some n) : Int) = ind n.addr a + ind n.last a := by
  show (((if n.addr = some a then 1 else 0) + (if n.last = some a then 1 else 0) : Nat) : Int) = _
  unfold ind; split <;> split <;> rfl
@[simp] theorem gh_none (a : Nat) : nodeRefs a none = 0 := rfl

/-- a cached node agrees with its history of results -/
structure HistOk (n : Node) : Prop where
  ne : n.hist ≠ []
  addr : n.addr = n.hist.headD none
  last : n.last = best n.hist
  err : lastSuccess n.hist ≠ none → n.err = fails n.hist

structure Inv (s : St) : Prop where
  lru_nodup : s.lru.Nodup
  lru_iff : ∀ k, k ∈ s.lru ↔ ∃ n, s.tree k = some n ∧ n.cached = true
  pend_nodup : (s.starting ++ s.jobs).Nodup
  pend_iff : ∀ k, k ∈ s.starting ++ s.jobs ↔ ∃ n, s.tree k = some n ∧ n.cached = false
  pendNode : ∀ k n, s.tree k = some n → n.cached = false → n.addr = none ∧ n.last = none ∧ n.queue ≠ [] ∧ n.hist = [] ∧ n.err = 0
  cachedQ : ∀ k n, s.tree k = some n → n.cached = true → n.queue = []
  hist : ∀ k n, s.tree k = some n → n.cached = true → HistOk n
  cnt : s.count = s.lru.length
  refs : ∀ a, s.ref a = (tsum (nodeRefs a) s.tree s.lru + cntA a s.callbacks + cntA a s.calling + s.held.count a : Nat)
  fresh : ∀ a, s.naddr ≤ a → s.ref a = 0
  reqs : ∀ r, s.reqs.count r = tsum (gq r) s.tree (s.starting ++ s.jobs) + cntR r s.publishing + cntR r s.callbacks + cntR r s.calling +
    cntR r s.done
  ids : s.reqs.map Req.id = List.range s.reqs.length
  own : ∀ k n a, s.tree k = some n → (n.addr = some a ∨ n.last = some a) → s.owner a = k ∧ a < s.naddr
  ownq : ∀ k n r, s.tree k = some n → r ∈ n.queue → r.key = k
  ownx : ∀ x, x ∈ s.publishing ++ s.callbacks ++ s.calling ++ s.done → ∀ a, x.2 = some a → s.owner a = x.1.key ∧ a < s.naddr

theorem inv_init : Inv ainit := by
  constructor <;> simp [ainit, tsum, cntA, cntR]

theorem lastSuccess_none (h : List (Option Nat)) : lastSuccess (none :: h) = lastSuccess h := rfl
theorem lastSuccess_some (a : Nat) (h : List (Option Nat)) : lastSuccess (some a :: h) = some a := rfl
theorem fails_none (h : List (Option Nat)) : fails (none :: h) = fails h + 1 := rfl
theorem fails_some (a : Nat) (h : List (Option Nat)) : fails (some a :: h) = 0 := rfl

theorem HistOk.served {n : Node} (h : HistOk n) : served n = best n.hist := by
  unfold Addr.served
  cases ha : n.addr with
  | none => exact h.last
  | some a =>
    have := h.addr
    rw [ha] at this
    cases hh : n.hist with
    | nil => exact absurd hh h.ne
    | cons x t =>
      rw [hh] at this
      have hx : x = some a := this.symm
      subst hx
      simp [best, fails_some, lastSuccess_some]

theorem HistOk.refreshed {n : Node} (h : HistOk n ∨ (n.hist = [] ∧ n.last = none)) (f : Bool) (a : Nat) : HistOk (refreshedNode n f a) := by
  cases f with
  | true =>
    refine ⟨by simp [refreshedNode], rfl, ?_, fun _ => rfl⟩
    simp [refreshedNode, best, fails_some, lastSuccess_some]
  | false =>
    refine ⟨by simp [refreshedNode], rfl, ?_, fun hs => ?_⟩
    · simp only [refreshedNode, Bool.false_eq_true, if_false, best, fails_none, lastSuccess_none]
      rcases h with h | ⟨h1, h2⟩
      · by_cases hs : lastSuccess n.hist = none
        · have hl := h.last
          simp only [best, hs] at hl
          have : n.last = none := by rw [hl]; split <;> rfl
          rw [this, hs]; split <;> split <;> rfl
        · have he := h.err hs
          have hl := h.last
          unfold best at hl
          rw [he, hl]; unfold maxErr
          by_cases hx : fails n.hist + 1 < 10
          · rw [if_neg (by omega), if_pos hx, if_pos (by omega)]
          · rw [if_pos (by omega), if_neg hx]
      · rw [h1, h2]
        show (if _ then none else none) = (if fails [] + 1 < 10 then lastSuccess [] else none)
        split <;> rfl
    · simp only [refreshedNode, Bool.false_eq_true, if_false, fails_none, lastSuccess_none] at hs ⊢
      rcases h with h | ⟨h1, h2⟩
      · rw [h.err hs]
      · rw [h1] at hs; exact absurd rfl hs

/-! ## Steps -/

theorem Inv.naddr_not {s : St} (h : Inv s) {k : Nat} {n : Node} (hn : s.tree k = some n) : n.addr ≠ some s.naddr ∧ n.last ≠ some s.naddr :=
  ⟨fun hc => Nat.lt_irrefl _ (h.own k n _ hn (.inl hc)).2, fun hc => Nat.lt_irrefl _ (h.own k n _ hn (.inr hc)).2⟩

/-- a node is touched: times change, the key moves to the end of the list, references and calls are added -/
theorem Inv.touched {s : St} (h : Inv s) {k : Nat} {n : Node} {now lv : Int} {rf : List Nat} {ρ : Nat → Int} {x : Option Nat}
    (hn : s.tree k = some n) (hc : n.cached = true) (hρ : ∀ a, ρ a = s.ref a + ind x a)
    (hx : ∀ a, x = some a → n.addr = some a ∨ n.last = some a) :
    Inv { s with reqs := s.reqs ++ [⟨s.reqs.length, k⟩], lru := s.lru.erase k ++ [k], refresh := rf, ref := ρ,
                 tree := upd s.tree k (some { n with lastTime := now, lastVerify := lv }),
                 calling := s.calling ++ [(⟨s.reqs.length, k⟩, x)] } := by
  have hk : k ∈ s.lru := (h.lru_iff k).2 ⟨n, hn, hc⟩
  have hkp : k ∉ s.starting ++ s.jobs := fun hp => by
    obtain ⟨m, hm, hmc⟩ := (h.pend_iff k).1 hp
    rw [hn] at hm; cases hm; rw [hc] at hmc; cases hmc
  obtain ⟨ln, li, pn, pi, pN, cq, hh, ct, rfs, fr, rq, ids, own, ownq, ownx⟩ := h
  have hfr : ∀ a, s.naddr ≤ a → ind x a = 0 := fun a ha => by
    unfold ind
    refine if_neg (fun hxa => ?_)
    rcases hx a hxa with hxa | hxa
    · exact absurd (own k n a hn (.inl hxa)).2 (by omega)
    · exact absurd (own k n a hn (.inr hxa)).2 (by omega)
  constructor <;> dsimp only
  case lru_nodup => exact nodup_move ln
  case lru_iff => intro j; rw [mem_move ln hk, li]; unfold upd; grind
  case pend_nodup => exact pn
  case pend_iff => intro j; rw [pi]; unfold upd; grind
  case pendNode => intro j m; unfold upd; grind
  case cachedQ => intro j m; unfold upd; grind
  case hist =>
    intro j m; unfold upd; split
    · intro hm _; cases hm; have := hh k n hn hc; exact ⟨this.ne, this.addr, this.last, this.err⟩
    · exact hh j m
  case cnt => rw [length_move hk]; exact ct
  case refs =>
    intro a
    have h1 := tsum_move (nodeRefs a) s.tree k (some { n with lastTime := now, lastVerify := lv }) s.lru ln hk
    rw [hn] at h1
    have h2 : nodeRefs a (some { n with lastTime := now, lastVerify := lv }) = nodeRefs a (some n) := rfl
    have h3 := cntA_single a (⟨s.reqs.length, k⟩, x)
    rw [hρ, rfs, cntA_append]; dsimp only at h3; omega
  case fresh => intro a ha; rw [hρ, fr a ha, hfr a ha]; rfl
  case reqs =>
    intro r
    rw [List.count_append, rq, tsum_upd_not_mem _ _ _ _ _ hkp, cntR_append, cntR_single, List.count_singleton]
    have : ((⟨s.reqs.length, k⟩ : Req) == r) = decide ((⟨s.reqs.length, k⟩ : Req) = r) := rfl
    rw [this]
    simp only [decide_eq_true_eq]; omega
  case ids => rw [List.map_append, ids]; simp [List.range_succ]
  case own => intro j m a; unfold upd; grind
  case ownq => intro j m r; unfold upd; grind
  case ownx =>
    intro y hy a ha
    simp only [List.mem_append, List.mem_singleton] at hy ownx
    rcases hy with (hy | hy | hy) | hy
    · exact ownx y (.inl (.inl hy)) a ha
    · exact ownx y (.inl (.inr hy)) a ha
    · subst hy; exact own k n a hn (hx a ha)
    · exact ownx y (.inr hy) a ha

theorem Inv.find {s s' : St} {k : Nat} {now : Int} {t : Bool} (h : Inv s) (he : find s k now t = .ok s') : Inv s' := by
  rcases find_ok he with ⟨hn, rfl⟩ | ⟨n, hn, hc, rfl⟩ | ⟨n, ρ, rf, lv, hn, hc, _, hρ, rfl⟩
  · have hkp : k ∉ s.starting ++ s.jobs := fun hp => by obtain ⟨m, hm, _⟩ := (h.pend_iff k).1 hp; rw [hn] at hm; cases hm
    have hkl : k ∉ s.lru := fun hp => by obtain ⟨m, hm, _⟩ := (h.lru_iff k).1 hp; rw [hn] at hm; cases hm
    obtain ⟨ln, li, pn, pi, pN, cq, hh, ct, rfs, fr, rq, ids, own, ownq, ownx⟩ := h
    constructor <;> dsimp only
    case lru_nodup => exact ln
    case lru_iff => intro j; rw [li]; unfold upd; grind
    case pend_nodup =>
      have hp : (s.starting ++ [k] ++ s.jobs).Perm (k :: (s.starting ++ s.jobs)) := by
        rw [List.append_assoc]; exact List.perm_middle
      exact hp.nodup_iff.2 (List.nodup_cons.2 ⟨hkp, pn⟩)
    case pend_iff =>
      intro j
      have := pi j
      simp only [List.mem_append, List.mem_singleton] at this ⊢
      unfold upd; grind
    case pendNode => intro j m; unfold upd; grind
    case cachedQ => intro j m; unfold upd; grind
    case hist =>
      intro j m; unfold upd; split
      · intro hm hmc; cases hm; cases hmc
      · exact hh j m
    case cnt => exact ct
    case refs => intro a; rw [tsum_upd_not_mem _ _ _ _ _ hkl]; exact rfs a
    case fresh => exact fr
    case reqs =>
      intro r
      have e : tsum (gq r) (upd s.tree k (some { queue := [⟨s.reqs.length, k⟩], lastTime := now, lastVerify := now })) (s.starting ++ [k] ++ s.jobs) =
          (if (⟨s.reqs.length, k⟩ : Req) = r then 1 else 0) + tsum (gq r) s.tree (s.starting ++ s.jobs) := by
        simp only [List.mem_append, not_or] at hkp
        rw [tsum_append, tsum_append, tsum_append, tsum_single, upd_same, tsum_upd_not_mem _ _ _ _ _ hkp.1, tsum_upd_not_mem _ _ _ _ _ hkp.2,
          gq_some, List.count_singleton]
        have : ((⟨s.reqs.length, k⟩ : Req) == r) = decide ((⟨s.reqs.length, k⟩ : Req) = r) := rfl
        rw [this]; simp only [decide_eq_true_eq]; omega
      rw [e, List.count_append, rq, List.count_singleton]
      have : ((⟨s.reqs.length, k⟩ : Req) == r) = decide ((⟨s.reqs.length, k⟩ : Req) = r) := rfl
      rw [this]; simp only [decide_eq_true_eq]; omega
    case ids => rw [List.map_append, ids]; simp [List.range_succ]
    case own => intro j m a; unfold upd; grind
    case ownq => intro j m r; unfold upd; grind
    case ownx => exact ownx
  · have hkp : k ∈ s.starting ++ s.jobs := (h.pend_iff k).2 ⟨n, hn, hc⟩
    have hkl : k ∉ s.lru := fun hp => by obtain ⟨m, hm, hmc⟩ := (h.lru_iff k).1 hp; rw [hn] at hm; cases hm; rw [hc] at hmc; cases hmc
    obtain ⟨ln, li, pn, pi, pN, cq, hh, ct, rfs, fr, rq, ids, own, ownq, ownx⟩ := h
    constructor <;> dsimp only
    case lru_nodup => exact ln
    case lru_iff => intro j; rw [li]; unfold upd; grind
    case pend_nodup => exact pn
    case pend_iff => intro j; rw [pi]; unfold upd; grind
    case pendNode => intro j m; unfold upd; grind
    case cachedQ => intro j m; unfold upd; grind
    case hist =>
      intro j m; unfold upd; split
      · intro hm hmc; cases hm; rw [hc] at hmc; cases hmc
      · exact hh j m
    case cnt => exact ct
    case refs => intro a; rw [tsum_upd_not_mem _ _ _ _ _ hkl]; exact rfs a
    case fresh => exact fr
    case reqs =>
      intro r
      have e := tsum_upd_mem (gq r) s.tree k (some { n with queue := ⟨s.reqs.length, k⟩ :: n.queue }) _ pn hkp
      rw [hn, gq_some, gq_some] at e
      dsimp only at e
      rw [List.count_cons] at e
      rw [List.count_append, rq, List.count_singleton]
      split at e <;> rename_i hb <;> simp only [hb, if_true, Bool.false_eq_true, if_false] <;> omega
    case ids => rw [List.map_append, ids]; simp [List.range_succ]
    case own => intro j m a; unfold upd; grind
    case ownq => intro j m r; unfold upd; grind
    case ownx => exact ownx
  · refine h.touched hn hc hρ (fun a ha => ?_)
    unfold served at ha
    split at ha
    · rename_i b hb; cases ha; exact .inl hb
    · exact .inr ha

theorem count_toList (x : Option Nat) (a : Nat) : ((x.toList).count a : Int) = ind x a := by
  cases x with
  | none => simp
  | some b =>
    rw [ind_some, Option.toList_some, List.count_singleton]
    by_cases h : b = a
    · simp [h]
    · simp [h]; exact fun h' => h h'.symm

theorem Inv.findCache {s s' : St} {k : Nat} {now : Int} {t : Bool} (h : Inv s) (he : findCache s k now t = .ok s') : Inv s' := by
  rcases findCache_ok he with rfl | ⟨n, ρ, rf, lv, hn, hc, _, hρ, rfl⟩
  · exact h
  · have hk : k ∈ s.lru := (h.lru_iff k).2 ⟨n, hn, hc⟩
    have hkp : k ∉ s.starting ++ s.jobs := fun hp => by
      obtain ⟨m, hm, hmc⟩ := (h.pend_iff k).1 hp
      rw [hn] at hm; cases hm; rw [hc] at hmc; cases hmc
    obtain ⟨ln, li, pn, pi, pN, cq, hh, ct, rfs, fr, rq, ids, own, ownq, ownx⟩ := h
    have hfr : ∀ a, s.naddr ≤ a → ind n.addr a = 0 := fun a ha => by
      unfold ind
      exact if_neg (fun hxa => absurd (own k n a hn (.inl hxa)).2 (by omega))
    constructor <;> dsimp only
    case lru_nodup => exact nodup_move ln
    case lru_iff => intro j; rw [mem_move ln hk, li]; unfold upd; grind
    case pend_nodup => exact pn
    case pend_iff => intro j; rw [pi]; unfold upd; grind
    case pendNode => intro j m; unfold upd; grind
    case cachedQ => intro j m; unfold upd; grind
    case hist =>
      intro j m; unfold upd; split
      · intro hm _; cases hm; have := hh k n hn hc; exact ⟨this.ne, this.addr, this.last, this.err⟩
      · exact hh j m
    case cnt => rw [length_move hk]; exact ct
    case refs =>
      intro a
      have h1 := tsum_move (nodeRefs a) s.tree k (some { n with lastTime := now, lastVerify := lv }) s.lru ln hk
      rw [hn] at h1
      have h2 : nodeRefs a (some { n with lastTime := now, lastVerify := lv }) = nodeRefs a (some n) := rfl
      have h3 := count_toList n.addr a
      rw [hρ, rfs, List.count_append]; omega
    case fresh => intro a ha; rw [hρ, fr a ha, hfr a ha]; rfl
    case reqs => intro r; rw [tsum_upd_not_mem _ _ _ _ _ hkp]; exact rq r
    case ids => exact ids
    case own => intro j m a; unfold upd; grind
    case ownq => intro j m r; unfold upd; grind
    case ownx => exact ownx

theorem tsum_perm (g : Option Node → Nat) (tree : Nat → Option Node) {l m : List Nat} (h : l.Perm m) : tsum g tree l = tsum g tree m :=
  (h.map _).sum_nat

theorem Inv.fail {s s' : St} {k : Nat} {st jb : List Nat} (h : Inv s) (hp : (s.starting ++ s.jobs).Perm (k :: (st ++ jb)))
    (he : resultFail { s with starting := st, jobs := jb } k = .ok s') : Inv s' := by
  obtain ⟨n, ρ, hn, hc, hρ, rfl⟩ := resultFail_ok he
  dsimp only at hn hρ
  have hkl : k ∉ s.lru := fun hp => by obtain ⟨m, hm, hmc⟩ := (h.lru_iff k).1 hp; rw [hn] at hm; cases hm; rw [hc] at hmc; cases hmc
  obtain ⟨ha, hl, hq, hhist, herr⟩ := h.pendNode k n hn hc
  obtain ⟨ln, li, pn, pi, pN, cq, hh, ct, rfs, fr, rq, ids, own, ownq, ownx⟩ := h
  have hρ' : ∀ a, ρ a = s.ref a := fun a => by rw [hρ, ha, hl]; simp
  have hnd := (hp.nodup_iff.1 pn)
  rw [List.nodup_cons] at hnd
  have hmem : ∀ j, j ∈ st ++ jb ↔ j ≠ k ∧ j ∈ s.starting ++ s.jobs := fun j => by
    rw [hp.mem_iff, List.mem_cons]
    constructor
    · exact fun hj => ⟨by rintro rfl; exact hnd.1 hj, .inr hj⟩
    · rintro ⟨h1, h2 | h2⟩
      · exact absurd h2 h1
      · exact h2
  constructor <;> dsimp only
  case lru_nodup => exact ln
  case lru_iff => intro j; rw [li]; unfold upd; grind
  case pend_nodup => exact hnd.2
  case pend_iff => intro j; rw [hmem, pi]; unfold upd; grind
  case pendNode => intro j m; unfold upd; grind
  case cachedQ => intro j m; unfold upd; grind
  case hist =>
    intro j m; unfold upd; split
    · intro hm; cases hm
    · exact hh j m
  case cnt => exact ct
  case refs => intro a; rw [tsum_upd_not_mem _ _ _ _ _ hkl, hρ']; exact rfs a
  case fresh => intro a ha; rw [hρ']; exact fr a ha
  case reqs =>
    intro r
    have e := tsum_perm (gq r) s.tree hp
    rw [tsum_cons, hn, gq_some] at e
    rw [tsum_upd_not_mem _ _ _ _ _ hnd.1, cntR_append, cntR_map, rq]; omega
  case ids => exact ids
  case own => intro j m a; unfold upd; grind
  case ownq => intro j m r; unfold upd; grind
  case ownx =>
    intro y hy a hya
    simp only [List.mem_append, List.mem_map] at hy ownx
    rcases hy with (((hy | ⟨r, _, hy⟩) | hy) | hy) | hy
    · exact ownx y (.inl (.inl (.inl hy))) a hya
    · subst hy; cases hya
    · exact ownx y (.inl (.inl (.inr hy))) a hya
    · exact ownx y (.inl (.inr hy)) a hya
    · exact ownx y (.inr hy) a hya

/-- a fresh address has no holder -/
theorem Inv.fresh_zero {s : St} (h : Inv s) : tsum (nodeRefs s.naddr) s.tree s.lru = 0 ∧ cntA s.naddr s.callbacks = 0 ∧
    cntA s.naddr s.calling = 0 ∧ s.held.count s.naddr = 0 := by
  have h1 := h.refs s.naddr
  rw [h.fresh _ (Nat.le_refl _)] at h1; omega

theorem Inv.success {s s' : St} {k : Nat} {st jb : List Nat} {f : Bool} (h : Inv s) (hp : (s.starting ++ s.jobs).Perm (k :: (st ++ jb)))
    (he : resultOk { s with starting := st, jobs := jb } k f = .ok s') : Inv s' := by
  obtain ⟨n, ρ, hn, hc, ha, hl, hρ, rfl⟩ := resultOk_ok he
  dsimp only at hn hρ
  have hkl : k ∉ s.lru := fun hp => by obtain ⟨m, hm, hmc⟩ := (h.lru_iff k).1 hp; rw [hn] at hm; cases hm; rw [hc] at hmc; cases hmc
  have hz := h.fresh_zero
  obtain ⟨_, _, hq, hhist, herr⟩ := h.pendNode k n hn hc
  obtain ⟨ln, li, pn, pi, pN, cq, hh, ct, rfs, fr, rq, ids, own, ownq, ownx⟩ := h
  have hnd := (hp.nodup_iff.1 pn)
  rw [List.nodup_cons] at hnd
  have hmem : ∀ j, j ∈ st ++ jb ↔ j ≠ k ∧ j ∈ s.starting ++ s.jobs := fun j => by
    rw [hp.mem_iff, List.mem_cons]
    constructor
    · exact fun hj => ⟨by rintro rfl; exact hnd.1 hj, .inr hj⟩
    · rintro ⟨h1, h2 | h2⟩
      · exact absurd h2 h1
      · exact h2
  have hle : s.naddr ≤ (if f = true then s.naddr + 1 else s.naddr) := by split <;> omega
  have hown : ∀ a, a < s.naddr → (if f = true then upd s.owner s.naddr k else s.owner) a = s.owner a := fun a ha => by
    split
    · exact upd_ne _ _ (by omega)
    · rfl
  have hnew : ∀ a, (if f = true then some s.naddr else none) = some a →
      (if f = true then upd s.owner s.naddr k else s.owner) a = k ∧ a < (if f = true then s.naddr + 1 else s.naddr) := fun a hx => by
    split at hx
    · rename_i hf; cases hx; rw [if_pos hf, if_pos hf]; exact ⟨upd_same .., by omega⟩
    · cases hx
  constructor <;> dsimp only
  case lru_nodup => exact List.nodup_append.2 ⟨ln, by simp, by grind⟩
  case lru_iff => intro j; rw [List.mem_append, li]; unfold upd; grind
  case pend_nodup => exact hnd.2
  case pend_iff => intro j; rw [hmem, pi]; unfold upd; grind
  case pendNode => intro j m; unfold upd; grind
  case cachedQ => intro j m; unfold upd; grind
  case hist =>
    intro j m; unfold upd; split
    · intro hm _
      cases hm
      refine ⟨by simp, rfl, ?_, ?_⟩
      · rw [hhist]; cases f <;> rfl
      · rw [hhist]; cases f
        · exact fun hx => absurd rfl hx
        · exact fun _ => herr
    · exact hh j m
  case cnt => rw [List.length_append, ct]; simp
  case refs =>
    intro a
    have e := gh_some a { n with cached := true, queue := [], addr := if f then some s.naddr else none, last := if f then some s.naddr else none, hist := (if f then some s.naddr else none) :: n.hist }
    rw [tsum_append, tsum_single, upd_same, tsum_upd_not_mem _ _ _ _ _ hkl, hρ]
    dsimp only at e
    have hr := rfs a
    by_cases hx : f = true ∧ a = s.naddr
    · obtain ⟨hf, rfl⟩ := hx
      rw [if_pos ⟨hf, rfl⟩]
      simp only [hf, if_true, ind_some] at e
      simp only [hf, if_true]
      omega
    · rw [if_neg hx]
      have e0 : ind (if f = true then some s.naddr else none) a = 0 := by
        cases f
        · simp
        · rw [if_pos rfl, ind_some, if_neg (fun h => hx ⟨rfl, h⟩)]
      rw [e0] at e
      omega
  case fresh =>
    intro a ha
    rw [hρ, if_neg]
    · exact fr a (by omega)
    · rintro ⟨hf, rfl⟩; rw [if_pos hf] at ha; omega
  case reqs =>
    intro r
    have e := tsum_perm (gq r) s.tree hp
    rw [tsum_cons, hn, gq_some] at e
    rw [tsum_upd_not_mem _ _ _ _ _ hnd.1, cntR_append, cntR_map, rq]; omega
  case ids => exact ids
  case own =>
    intro j m a; unfold upd; split
    · rename_i hj
      intro hm hx
      cases hm
      rw [hj]; exact hnew a (by simpa using hx)
    · intro hm hx
      have := own j m a hm hx
      exact ⟨(hown a this.2).trans this.1, by omega⟩
  case ownq => intro j m r; unfold upd; grind
  case ownx =>
    intro y hy a hya
    simp only [List.mem_append, List.mem_map] at hy ownx
    have old : (((y ∈ s.publishing ∨ y ∈ s.callbacks) ∨ y ∈ s.calling) ∨ y ∈ s.done) →
        (if f = true then upd s.owner s.naddr k else s.owner) a = y.1.key ∧ a < (if f = true then s.naddr + 1 else s.naddr) := fun hy => by
      have := ownx y hy a hya
      exact ⟨(hown a this.2).trans this.1, by omega⟩
    rcases hy with (((hy | ⟨r, hr, hy⟩) | hy) | hy) | hy
    · exact old (.inl (.inl (.inl hy)))
    · subst hy
      have := hnew a hya
      exact ⟨this.1.trans (ownq k n r hn hr).symm, this.2⟩
    · exact old (.inl (.inl (.inr hy)))
    · exact old (.inl (.inr hy))
    · exact old (.inr hy)

theorem Inv.refreshed {s s' : St} {k : Nat} {f : Bool} {now : Int} {rf : List Nat} (h : Inv s)
    (he : updateCache { s with refresh := rf } k f now = .ok s') : Inv s' := by
  obtain ⟨n, ρ, hn, hc, hρ, rfl⟩ := updateCache_ok he (fun n hn => h.naddr_not hn)
  have hnone : s.tree k = none → n = { cached := true, lastTime := now, lastVerify := now } := fun ht => by
    rw [hn]; simp only [refreshNode, ht, Option.getD_none]
  have hsome : ∀ m, s.tree k = some m → s.tree k = some n := fun m ht => by
    rw [hn]; simp only [refreshNode, ht, Option.getD_some]
  clear hn he
  dsimp only at hρ
  have hz := h.fresh_zero
  have hle : s.naddr ≤ (if f = true then s.naddr + 1 else s.naddr) := by split <;> omega
  have hown : ∀ a, a < s.naddr → (if f = true then upd s.owner s.naddr k else s.owner) a = s.owner a := fun a ha => by
    split
    · exact upd_ne _ _ (by omega)
    · rfl
  -- the old node's references, counted in the list with the key removed
  have hkp : k ∉ s.starting ++ s.jobs := fun hp => by
    obtain ⟨m, hm, hmc⟩ := (h.pend_iff k).1 hp
    rw [hsome m hm] at hm; cases hm; rw [hc] at hmc; cases hmc
  have hnaddr : n.addr ≠ some s.naddr ∧ n.last ≠ some s.naddr := by
    cases ht : s.tree k with
    | none => rw [hnone ht]; simp
    | some m => exact h.naddr_not (hsome m ht)
  have hq : n.queue = [] := by
    cases ht : s.tree k with
    | none => rw [hnone ht]
    | some m => exact h.cachedQ k n (hsome m ht) hc
  have hhist : HistOk n ∨ (n.hist = [] ∧ n.last = none) := by
    cases ht : s.tree k with
    | none => rw [hnone ht]; exact .inr ⟨rfl, rfl⟩
    | some m => exact .inl (h.hist k n (hsome m ht) hc)
  have hnown : ∀ a, n.addr = some a ∨ n.last = some a → s.owner a = k ∧ a < s.naddr := fun a ha => by
    cases ht : s.tree k with
    | none => rw [hnone ht] at ha; simp at ha
    | some m => exact h.own k n a (hsome m ht) ha
  obtain ⟨l, hl⟩ : ∃ l, l = (if s.tree k = none then s.lru else s.lru.erase k) := ⟨_, rfl⟩
  have hkl : k ∉ l := by
    rw [hl]; split
    · rename_i ht; exact fun hp => by obtain ⟨m, hm, _⟩ := (h.lru_iff k).1 hp; rw [ht] at hm; cases hm
    · exact h.lru_nodup.not_mem_erase
  have hlnd : l.Nodup := by
    rw [hl]; split
    · exact h.lru_nodup
    · exact h.lru_nodup.erase k
  have hlmem : ∀ j, j ∈ l ↔ j ∈ s.lru ∧ j ≠ k := fun j => by
    rw [hl]; split
    · rename_i ht
      refine ⟨fun hj => ⟨hj, ?_⟩, fun hj => hj.1⟩
      rintro rfl; obtain ⟨m, hm, _⟩ := (h.lru_iff j).1 hj; rw [ht] at hm; cases hm
    · rw [h.lru_nodup.mem_erase_iff]; exact And.comm
  have hsum : ∀ a, (tsum (nodeRefs a) s.tree s.lru : Int) = ind n.addr a + ind n.last a + tsum (nodeRefs a) s.tree l := fun a => by
    cases ht : s.tree k with
    | none =>
      rw [hnone ht, hl, if_pos ht]; simp
    | some m =>
      have ht' := hsome m ht
      have hk : k ∈ s.lru := (h.lru_iff k).2 ⟨n, ht', hc⟩
      rw [hl, if_neg (by simp [ht]), tsum_erase _ _ k s.lru hk, ht', ← gh_some]; omega
  have hcnt : (l.length : Int) + 1 = if s.tree k = none then s.count + 1 else s.count := by
    rw [h.cnt, hl]; split
    · rfl
    · rename_i ht
      obtain ⟨m, hm⟩ := Option.ne_none_iff_exists'.1 ht
      have hk : k ∈ s.lru := (h.lru_iff k).2 ⟨n, hsome m hm, hc⟩
      rw [List.length_erase_of_mem hk]; have := List.length_pos_of_mem hk; omega
  obtain ⟨n', hn2⟩ : ∃ n', n' = refreshedNode n f s.naddr := ⟨_, rfl⟩
  have hc' : n'.cached = true := by rw [hn2]; cases f <;> exact hc
  have hq' : n'.queue = [] := by rw [hn2]; cases f <;> exact hq
  have hh' : HistOk n' := by rw [hn2]; exact HistOk.refreshed hhist f s.naddr
  have hg' : (∀ a, ρ a - s.ref a = ind n'.addr a + ind n'.last a - ind n.addr a - ind n.last a) := fun a => by
    rw [hρ, hn2]
    cases f with
    | true =>
      simp only [true_and, true_or, if_true, refreshedNode, ind_some]
      by_cases ha : a = s.naddr
      · subst ha
        have e1 : ind n.addr s.naddr = 0 := if_neg hnaddr.1
        have e2 : ind n.last s.naddr = 0 := if_neg hnaddr.2
        have e3 := h.fresh s.naddr (Nat.le_refl _)
        simp only [if_true, e1, e2, e3]; omega
      · simp only [ha, if_false]; omega
    | false =>
      simp only [Bool.false_eq_true, false_and, false_or, if_false, refreshedNode, ind_none]
      by_cases hm : n.err + 1 ≥ maxErr
      · simp only [hm, if_true, ind_none]; omega
      · simp only [hm, if_false]; omega
  have hnew : ∀ a, n'.addr = some a ∨ n'.last = some a →
      (if f = true then upd s.owner s.naddr k else s.owner) a = k ∧ a < (if f = true then s.naddr + 1 else s.naddr) := fun a hx => by
    rw [hn2] at hx
    cases f with
    | true =>
      simp only [refreshedNode, if_true] at hx ⊢
      have : a = s.naddr := by rcases hx with hx | hx <;> cases hx <;> rfl
      subst this; exact ⟨upd_same .., by omega⟩
    | false =>
      simp only [refreshedNode, Bool.false_eq_true, if_false] at hx ⊢
      rcases hx with hx | hx
      · cases hx
      · split at hx
        · cases hx
        · exact hnown a (.inr hx)
  rw [← hl, ← hn2]
  obtain ⟨ln, li, pn, pi, pN, cq, hh, ct, rfs, fr, rq, ids, own, ownq, ownx⟩ := h
  constructor <;> dsimp only
  case lru_nodup => exact List.nodup_append.2 ⟨hlnd, by simp, by grind⟩
  case lru_iff => intro j; rw [List.mem_append, hlmem, li]; unfold upd; grind
  case pend_nodup => exact pn
  case pend_iff => intro j; rw [pi]; unfold upd; grind
  case pendNode => intro j m; unfold upd; grind
  case cachedQ => intro j m; unfold upd; grind
  case hist =>
    intro j m; unfold upd; split
    · intro hm _; cases hm; exact hh'
    · exact hh j m
  case cnt => rw [List.length_append, ← hcnt]; rfl
  case refs =>
    intro a
    have e := gh_some a n'
    have e1 := hsum a
    have e2 := rfs a
    have e3 := hg' a
    rw [tsum_append, tsum_single, upd_same, tsum_upd_not_mem _ _ _ _ _ hkl]
    omega
  case fresh =>
    intro a ha
    rw [hρ, if_neg]
    · have e0 := fr a (by omega)
      have e1 : ind n.addr a = 0 := if_neg (fun hx => absurd (hnown a (.inl hx)).2 (by omega))
      have e2 : ind n.last a = 0 := if_neg (fun hx => absurd (hnown a (.inr hx)).2 (by omega))
      rw [e0, e1, e2]; split <;> rfl
    · rintro ⟨hf, rfl⟩; rw [if_pos hf] at ha; omega
  case reqs => intro r; rw [tsum_upd_not_mem _ _ _ _ _ hkp]; exact rq r
  case ids => exact ids
  case own =>
    intro j m a; unfold upd; split
    · rename_i hj
      intro hm hx
      cases hm
      rw [hj]; exact hnew a hx
    · intro hm hx
      have := own j m a hm hx
      exact ⟨(hown a this.2).trans this.1, by omega⟩
  case ownq => intro j m r; unfold upd; grind
  case ownx =>
    intro y hy a hya
    have := ownx y hy a hya
    exact ⟨(hown a this.2).trans this.1, by omega⟩

/-- the oldest entry is evicted -/
def evict (s : St) (k : Nat) (r : List Nat) (ρ : Nat → Int) : St :=
  { s with tree := upd s.tree k none, lru := r, ref := ρ, count := s.count - 1 }

theorem Inv.evict {s : St} {k : Nat} {r : List Nat} {n : Node} {ρ : Nat → Int} (h : Inv s) (hl : s.lru = k :: r) (hn : s.tree k = some n)
    (hρ : ∀ a, ρ a = s.ref a - ind n.addr a - ind n.last a) : Inv (evict s k r ρ) := by
  have hk : k ∈ s.lru := by rw [hl]; simp
  have hc : n.cached = true := by obtain ⟨m, hm, hmc⟩ := (h.lru_iff k).1 hk; rw [hn] at hm; cases hm; exact hmc
  have hkp : k ∉ s.starting ++ s.jobs := fun hp => by
    obtain ⟨m, hm, hmc⟩ := (h.pend_iff k).1 hp
    rw [hn] at hm; cases hm; rw [hc] at hmc; cases hmc
  obtain ⟨ln, li, pn, pi, pN, cq, hh, ct, rfs, fr, rq, ids, own, ownq, ownx⟩ := h
  have hnd := ln
  rw [hl, List.nodup_cons] at hnd
  have hmem : ∀ j, j ∈ r ↔ j ≠ k ∧ j ∈ s.lru := fun j => by
    rw [hl, List.mem_cons]
    constructor
    · exact fun hj => ⟨by rintro rfl; exact hnd.1 hj, .inr hj⟩
    · rintro ⟨h1, h2 | h2⟩
      · exact absurd h2 h1
      · exact h2
  constructor <;> simp only [Addr.evict]
  case lru_nodup => exact hnd.2
  case lru_iff => intro j; rw [hmem, li]; unfold upd; grind
  case pend_nodup => exact pn
  case pend_iff => intro j; rw [pi]; unfold upd; grind
  case pendNode => intro j m; unfold upd; grind
  case cachedQ => intro j m; unfold upd; grind
  case hist =>
    intro j m; unfold upd; split
    · intro hm; cases hm
    · exact hh j m
  case cnt => rw [ct, hl, List.length_cons]; omega
  case refs =>
    intro a
    have e := gh_some a n
    have e2 := rfs a
    rw [hl, tsum_cons, hn] at e2
    rw [tsum_upd_not_mem _ _ _ _ _ hnd.1, hρ]; omega
  case fresh =>
    intro a ha
    have e1 : ind n.addr a = 0 := if_neg (fun hx => absurd (own k n a hn (.inl hx)).2 (by omega))
    have e2 : ind n.last a = 0 := if_neg (fun hx => absurd (own k n a hn (.inr hx)).2 (by omega))
    rw [hρ, fr a ha, e1, e2]; rfl
  case reqs => intro r; rw [tsum_upd_not_mem _ _ _ _ _ hkp]; exact rq r
  case ids => exact ids
  case own => intro j m a; unfold upd; grind
  case ownq => intro j m r; unfold upd; grind
  case ownx => exact ownx

theorem Inv.flush {s s' : St} {now : Int} {fuel : Nat} (h : Inv s) (he : flushLoop now fuel s = .ok s') : Inv s' := by
  induction fuel generalizing s with
  | zero => cases he
  | succ m ih =>
    unfold flushLoop at he
    split at he
    · cases he; exact h
    · rename_i k r hl
      split at he
      · cases he
      · rename_i n hn
        split at he
        · cases he; exact h
        · obtain ⟨s1, h1, he⟩ := bind_ok he
          obtain ⟨s2, h2, he⟩ := bind_ok he
          obtain ⟨ρ1, rfl, e1⟩ := decOpt_ok h1
          obtain ⟨ρ2, rfl, e2⟩ := decOpt_ok h2
          exact ih (s := Addr.evict s k r ρ2) (h.evict hl hn (fun a => by rw [e2]; dsimp only; rw [e1])) he

theorem perm_start {k : Nat} {a b : List Nat} (h : k ∈ a) : (a ++ b).Perm (k :: (a.erase k ++ b)) := by
  rw [← List.cons_append]; exact (List.perm_cons_erase h).append_right _

theorem perm_job {k : Nat} {a b : List Nat} (h : k ∈ b) : (a ++ b).Perm (k :: (a ++ b.erase k)) :=
  ((List.perm_cons_erase h).append_left a).trans List.perm_middle

theorem mem_erase_or {x y : Req × Option Nat} {l : List (Req × Option Nat)} (h : y ∈ l.erase x) : y ∈ l := List.mem_of_mem_erase h

theorem Inv.step {s s' : St} {o : Op} (h : Inv s) (he : step s o = .ok s') : Inv s' := by
  cases o with
  | find k now t => exact h.find he
  | findCache k now t => exact h.findCache he
  | releaseHeld b =>
    simp only [Addr.step] at he
    split at he
    · rename_i hb
      obtain ⟨ρ, rfl, hρ⟩ := decOpt_ok he
      obtain ⟨ln, li, pn, pi, pN, cq, hh, ct, rfs, fr, rq, ids, own, ownq, ownx⟩ := h
      have hcount : ∀ a, (s.held.count a : Int) = ind (some b) a + (s.held.erase b).count a := fun a => by
        rw [(List.perm_cons_erase hb).count_eq, List.count_cons, ind_some]
        by_cases hab : a = b
        · simp [hab]; omega
        · have : (b == a) = false := by simp; exact fun h => hab h.symm
          simp [hab, this]
      constructor <;> try assumption
      case refs => intro a; have := rfs a; have := hcount a; have := hρ a; dsimp only at *; omega
      case fresh =>
        intro a ha
        have h0 := fr a ha
        have h1 := rfs a
        have h2 := hcount a
        have h3 := ind_nonneg (some b) a
        have h4 := hρ a
        dsimp only at h4 ⊢; omega
    · cases he
  | callDone x =>
    simp only [Addr.step] at he
    split at he
    · rename_i hx
      obtain ⟨ρ, rfl, hρ⟩ := decOpt_ok he
      obtain ⟨ln, li, pn, pi, pN, cq, hh, ct, rfs, fr, rq, ids, own, ownq, ownx⟩ := h
      constructor <;> try assumption
      case refs => intro a; have := rfs a; have := cntA_erase a hx; have := hρ a; dsimp only at *; omega
      case fresh =>
        intro a ha
        have h0 := fr a ha
        have h1 := rfs a
        have h2 := cntA_erase a hx
        have h3 := ind_nonneg x.2 a
        have h4 := hρ a
        dsimp only at h4 ⊢; omega
      case reqs =>
        intro r
        have h1 := rq r
        have h2 := cntR_erase r hx
        have h3 := cntR_append r s.done [x]
        have h4 := cntR_single r x
        dsimp only; omega
      case ownx =>
        intro y hy a hya
        refine ownx y ?_ a hya
        simp only [List.mem_append, List.mem_singleton] at hy ⊢
        rcases hy with ((hy | hy) | hy) | hy | hy
        · exact .inl (.inl (.inl hy))
        · exact .inl (.inl (.inr hy))
        · exact .inl (.inr (List.mem_of_mem_erase hy))
        · exact .inr hy
        · subst hy; exact .inl (.inr hx)
    · cases he
  | startJob k ok =>
    simp only [Addr.step] at he
    split at he
    · rename_i hk
      cases ok with
      | true =>
        cases he
        obtain ⟨ln, li, pn, pi, pN, cq, hh, ct, rfs, fr, rq, ids, own, ownq, ownx⟩ := h
        have hp : (s.starting ++ s.jobs).Perm (s.starting.erase k ++ (s.jobs ++ [k])) := by
          rw [← List.append_assoc]
          exact (perm_start hk).trans (List.perm_append_comm (l₁ := [k]))
        constructor <;> try assumption
        case pend_nodup => exact hp.nodup_iff.1 pn
        case pend_iff => intro j; exact hp.mem_iff.symm.trans (pi j)
        case reqs => intro r; dsimp only; rw [← tsum_perm _ _ hp]; exact rq r
      | false => exact h.fail (perm_start hk) he
    · cases he
  | timeout k =>
    simp only [Addr.step] at he
    split at he
    · rename_i hk; exact h.fail (perm_job hk) he
    · cases he
  | resolved k f =>
    simp only [Addr.step] at he
    split at he
    · rename_i hk; exact h.success (perm_job hk) he
    · cases he
  | publish x =>
    simp only [Addr.step] at he
    split at he
    · rename_i hx
      obtain ⟨ρ, rfl, hρ⟩ := incOpt_ok he
      obtain ⟨ln, li, pn, pi, pN, cq, hh, ct, rfs, fr, rq, ids, own, ownq, ownx⟩ := h
      constructor <;> try assumption
      case refs =>
        intro a
        have h1 := rfs a
        have h2 := cntA_append a s.callbacks [x]
        have h3 := cntA_single a x
        have h4 := hρ a
        dsimp only at *; omega
      case fresh =>
        intro a ha
        have h0 := fr a ha
        have h4 := hρ a
        have h5 : ind x.2 a = 0 := if_neg (fun hxa => absurd (ownx x (by simp [hx]) a hxa).2 (by dsimp only at ha; omega))
        dsimp only at h4 ⊢; omega
      case reqs =>
        intro r
        have h1 := rq r
        have h2 := cntR_erase r hx
        have h3 := cntR_append r s.callbacks [x]
        have h4 := cntR_single r x
        dsimp only; omega
      case ownx =>
        intro y hy a hya
        refine ownx y ?_ a hya
        simp only [List.mem_append, List.mem_singleton] at hy ⊢
        rcases hy with ((hy | hy | hy) | hy) | hy
        · exact .inl (.inl (.inl (List.mem_of_mem_erase hy)))
        · exact .inl (.inl (.inr hy))
        · subst hy; exact .inl (.inl (.inl hx))
        · exact .inl (.inr hy)
        · exact .inr hy
    · cases he
  | deliver x =>
    simp only [Addr.step] at he
    split at he
    · rename_i hx
      obtain ⟨ρ, rfl, hρ⟩ := decOpt_ok he
      obtain ⟨ln, li, pn, pi, pN, cq, hh, ct, rfs, fr, rq, ids, own, ownq, ownx⟩ := h
      constructor <;> try assumption
      case refs => intro a; have := rfs a; have := cntA_erase a hx; have := hρ a; dsimp only at *; omega
      case fresh =>
        intro a ha
        have h0 := fr a ha
        have h1 := rfs a
        have h2 := cntA_erase a hx
        have h3 := ind_nonneg x.2 a
        have h4 := hρ a
        dsimp only at h4 ⊢; omega
      case reqs =>
        intro r
        have h1 := rq r
        have h2 := cntR_erase r hx
        have h3 := cntR_append r s.done [x]
        have h4 := cntR_single r x
        dsimp only; omega
      case ownx =>
        intro y hy a hya
        refine ownx y ?_ a hya
        simp only [List.mem_append, List.mem_singleton] at hy ⊢
        rcases hy with ((hy | hy) | hy) | hy | hy
        · exact .inl (.inl (.inl hy))
        · exact .inl (.inl (.inr (List.mem_of_mem_erase hy)))
        · exact .inl (.inr hy)
        · exact .inr hy
        · subst hy; exact .inl (.inl (.inr hx))
    · cases he
  | refreshed k f now =>
    simp only [Addr.step] at he
    split at he
    · exact h.refreshed he
    · cases he
  | flush now => exact h.flush he

theorem inv_of_reachable {s : St} (h : Reachable step ainit s) : Inv s :=
  h.invariant inv_init (fun _ _ _ hi he => hi.step he)

end Kasync.Addr
