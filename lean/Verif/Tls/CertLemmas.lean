import Verif.Tls.Cert

/-!
# Loading certificates: specification and lemmas (C51)
-/

namespace Kasync.Tls.Cert

/-! ## Specification -/

/-- the text of a source: what follows "data:", or the contents of the file -/
def Opens (env : Env) (src : Bytes) (items : List Pem) : Prop :=
  (∃ t, src = dataPrefix ++ t ∧ env.memOk = true ∧ items = env.parse t) ∨ ((∀ t, src ≠ dataPrefix ++ t) ∧ env.file src = some items)

/-- certificates of a text that end up in a chain -/
def plain : Pem → Option Nat
  | .cert n => some n
  | _ => none

def isBad : Pem → Bool
  | .badCert _ => true
  | _ => false

/-- anything a first read does not skip -/
def isCert : Pem → Bool
  | .cert _ | .trusted _ | .badCert _ => true
  | _ => false

/-- the certificates `cs` follow in the text, up to its end (an error with the number of "no start line" passes for the end) -/
def ChainOf (l : List Pem) (cs : List Nat) : Prop :=
  ∃ mid post, l = mid ++ post ∧ (∀ p ∈ mid, isBad p = false) ∧ cs = mid.filterMap plain ∧ (post = [] ∨ ∃ q, post = .badCert noStart :: q)

/-- the text has a first certificate `n` and the chain `cs` after it -/
def CertText (items : List Pem) (n : Nat) (cs : List Nat) : Prop :=
  ∃ pre leaf rest, items = pre ++ leaf :: rest ∧ (∀ p ∈ pre, isCert p = false) ∧ (leaf = .cert n ∨ leaf = .trusted n) ∧ ChainOf rest cs

/-- the first key block of a text -/
def KeyText (items : List Pem) (n : Nat) (pw : Option Bytes) : Prop :=
  ∃ pre post, items = pre ++ .key n pw :: post ∧ ∀ p ∈ pre, (∀ m q, p ≠ .key m q) ∧ p ≠ .badKey

/-! ## Releasing -/

theorem freeAll_eq (w : World) (xs : List X509) (h : ∀ y, xs.count y ≤ w.refs y) :
    freeAll w xs = some { w with refs := fun y => w.refs y - xs.count y } := by
  induction xs generalizing w with
  | nil => simp [freeAll]
  | cons x xs ih =>
    have hx := h x
    rw [List.count_cons_self] at hx
    have h1 : x509Free w x = some { w with refs := upd w.refs x (w.refs x - 1) } := by
      unfold x509Free; rw [if_neg (by omega)]
    rw [freeAll, h1]
    simp only [Option.bind_some]
    rw [ih]
    · congr 2
      funext y
      simp only [upd]
      by_cases e : y = x
      · subst e; rw [if_pos rfl, List.count_cons_self]; omega
      · rw [if_neg e, List.count_cons_of_ne (Ne.symm e)]
    · intro y
      have := h y
      simp only [upd]
      by_cases e : y = x
      · subst e; rw [if_pos rfl]; rw [List.count_cons_self] at this; omega
      · rw [if_neg e]; rw [List.count_cons_of_ne (Ne.symm e)] at this; exact this

theorem popFree_eq (w : World) (xs : List X509) (hs : 0 < w.stacks) (h : ∀ y, xs.count y ≤ w.refs y) :
    popFree w xs = some { w with stacks := w.stacks - 1, refs := fun y => w.refs y - xs.count y } := by
  unfold popFree
  rw [if_neg (by omega)]
  exact freeAll_eq { w with stacks := w.stacks - 1 } xs h

theorem x509Free_eq (w : World) (x : X509) (h : 0 < w.refs x) :
    x509Free w x = some { w with refs := fun y => w.refs y - [x].count y } := by
  have := freeAll_eq w [x] (by
    intro y
    by_cases e : y = x
    · subst e; simp; omega
    · rw [List.count_cons_of_ne (Ne.symm e)]; simp)
  simp only [freeAll] at this
  cases hx : x509Free w x with
  | none => rw [hx] at this; simp at this
  | some v => rw [hx] at this; simpa using this

theorem bioFree_eq (w : World) (h : 0 < w.bios) : bioFree w = some { w with bios := w.bios - 1 } := by
  unfold bioFree; rw [if_neg (by omega)]

theorem keyFree_eq (w : World) (k : Nat) (h : 0 < w.krefs k) : keyFree w k = some { w with krefs := upd w.krefs k (w.krefs k - 1) } := by
  unfold keyFree; rw [if_neg (by omega)]

/-- 531-537, 540-546 -/
theorem chainFail_eq (w : World) (x : X509) (chain : List X509) (hb : 0 < w.bios) (hs : 0 < w.stacks) (h : ∀ y, (x :: chain).count y ≤ w.refs y) :
    ((bioFree w).bind fun w => (x509Free w x).bind fun w => (popFree w chain).map (·, (none : Option (List X509)))) =
      some ({ w with bios := w.bios - 1, stacks := w.stacks - 1, refs := fun y => w.refs y - (x :: chain).count y }, none) := by
  have e0 : freeAll { w with bios := w.bios - 1, stacks := w.stacks - 1 } (x :: chain) =
      some { w with bios := w.bios - 1, stacks := w.stacks - 1, refs := fun y => w.refs y - (x :: chain).count y } := freeAll_eq _ _ h
  have hx : 0 < w.refs x := by have := h x; rw [List.count_cons_self] at this; omega
  rw [bioFree_eq w hb]
  simp only [Option.bind_some]
  rw [freeAll] at e0
  have h1 : x509Free { w with bios := w.bios - 1 } x = some { w with bios := w.bios - 1, refs := upd w.refs x (w.refs x - 1) } := by
    unfold x509Free; rw [if_neg (by simp only; omega)]
  have h2 : x509Free { w with bios := w.bios - 1, stacks := w.stacks - 1 } x = some { w with bios := w.bios - 1, stacks := w.stacks - 1, refs := upd w.refs x (w.refs x - 1) } := by
    unfold x509Free; rw [if_neg (by simp only; omega)]
  rw [h1]
  rw [h2] at e0
  simp only [Option.bind_some, popFree] at e0 ⊢
  rw [if_neg (by omega)]
  rw [e0]
  rfl

/-! ## Reading -/

theorem readX509_spec (l : List Pem) :
    (∃ n l' pre, readX509 l = .ok (n, l') ∧ l = pre ++ .cert n :: l' ∧ ∀ p ∈ pre, plain p = none ∧ isBad p = false) ∨
    (∃ r pre post, readX509 l = .error r ∧ l = pre ++ .badCert r :: post ∧ ∀ p ∈ pre, plain p = none ∧ isBad p = false) ∨
    (readX509 l = .error noStart ∧ ∀ p ∈ l, plain p = none ∧ isBad p = false) := by
  induction l with
  | nil => exact .inr (.inr ⟨rfl, by simp⟩)
  | cons p l ih =>
    by_cases hc : ∃ n, p = .cert n
    · obtain ⟨n, rfl⟩ := hc
      exact .inl ⟨n, l, [], rfl, rfl, by simp⟩
    · by_cases hb : ∃ r, p = .badCert r
      · obtain ⟨r, rfl⟩ := hb
        exact .inr (.inl ⟨r, [], l, rfl, rfl, by simp⟩)
      · have e : readX509 (p :: l) = readX509 l := by
          cases p <;> first | rfl | exact absurd ⟨_, rfl⟩ hc | exact absurd ⟨_, rfl⟩ hb
        have hp : plain p = none ∧ isBad p = false := by
          cases p <;> first | exact ⟨rfl, rfl⟩ | exact absurd ⟨_, rfl⟩ hc | exact absurd ⟨_, rfl⟩ hb
        rw [e]
        rcases ih with ⟨n, l', pre, h1, h2, h3⟩ | ⟨r, pre, post, h1, h2, h3⟩ | ⟨h1, h2⟩
        · refine .inl ⟨n, l', p :: pre, h1, by rw [h2]; rfl, ?_⟩
          intro q hq
          rcases List.mem_cons.1 hq with rfl | hq
          · exact hp
          · exact h3 q hq
        · refine .inr (.inl ⟨r, p :: pre, post, h1, by rw [h2]; rfl, ?_⟩)
          intro q hq
          rcases List.mem_cons.1 hq with rfl | hq
          · exact hp
          · exact h3 q hq
        · refine .inr (.inr ⟨h1, ?_⟩)
          intro q hq
          rcases List.mem_cons.1 hq with rfl | hq
          · exact hp
          · exact h2 q hq

theorem filterMap_none {pre : List Pem} (h : ∀ p ∈ pre, plain p = none ∧ isBad p = false) : pre.filterMap plain = [] := by
  rw [List.filterMap_eq_nil_iff]; exact fun p hp => (h p hp).1

theorem chainOf_step {pre l' : List Pem} {n : Nat} {cs : List Nat} (h : ∀ p ∈ pre, plain p = none ∧ isBad p = false) :
    ChainOf (pre ++ .cert n :: l') cs ↔ ∃ cs', cs = n :: cs' ∧ ChainOf l' cs' := by
  constructor
  · rintro ⟨mid, post, h1, h2, h3, h4⟩
    rcases List.append_eq_append_iff.1 h1 with ⟨x, hx, hy⟩ | ⟨x, hx, hy⟩
    · cases x with
      | nil =>
        simp only [List.nil_append] at hy
        rcases h4 with rfl | ⟨q, rfl⟩
        · cases hy
        · simp at hy
      | cons d x =>
        simp only [List.cons_append, List.cons.injEq] at hy
        obtain ⟨rfl, rfl⟩ := hy
        refine ⟨x.filterMap plain, ?_, x, post, rfl, fun p hp => h2 p (by rw [hx]; simp [hp]), rfl, h4⟩
        rw [h3, hx, List.filterMap_append, filterMap_none h]; rfl
    · -- the text would end inside pre
      rcases h4 with rfl | ⟨q, rfl⟩
      · simp at hy
      · cases x with
        | nil => simp at hy
        | cons d x =>
          simp only [List.cons_append, List.cons.injEq] at hy
          have := (h d (by rw [hx]; simp)).2
          rw [← hy.1] at this
          cases this
  · rintro ⟨cs', rfl, mid, post, h1, h2, h3, h4⟩
    refine ⟨pre ++ .cert n :: mid, post, by rw [h1]; simp, ?_, ?_, h4⟩
    · intro p hp
      rcases List.mem_append.1 hp with hp | hp
      · exact (h p hp).2
      · rcases List.mem_cons.1 hp with rfl | hp
        · rfl
        · exact h2 p hp
    · rw [List.filterMap_append, filterMap_none h, List.filterMap_cons, h3]; rfl

theorem chainOf_bad {pre post : List Pem} {r : Nat} {cs : List Nat} (h : ∀ p ∈ pre, plain p = none ∧ isBad p = false) :
    ChainOf (pre ++ .badCert r :: post) cs ↔ r = noStart ∧ cs = [] := by
  constructor
  · rintro ⟨mid, p2, h1, h2, h3, h4⟩
    rcases List.append_eq_append_iff.1 h1 with ⟨x, hx, hy⟩ | ⟨x, hx, hy⟩
    · cases x with
      | nil =>
        simp only [List.nil_append, List.append_nil] at hy hx
        rcases h4 with rfl | ⟨q, rfl⟩
        · cases hy
        · simp only [List.cons.injEq, Pem.badCert.injEq] at hy
          exact ⟨hy.1, by rw [h3, hx]; exact filterMap_none h⟩
      | cons d x =>
        simp only [List.cons_append, List.cons.injEq] at hy
        have := h2 d (by rw [hx]; simp)
        rw [← hy.1] at this; cases this
    · rcases h4 with rfl | ⟨q, rfl⟩
      · simp at hy
      · cases x with
        | nil =>
          simp only [List.nil_append, List.append_nil, List.cons.injEq, Pem.badCert.injEq] at hy hx
          refine ⟨hy.1.symm, ?_⟩
          rw [h3, ← hx]; exact filterMap_none h
        | cons d x =>
          simp only [List.cons_append, List.cons.injEq] at hy
          have := (h d (by rw [hx]; simp)).2
          rw [← hy.1] at this
          cases this
  · rintro ⟨rfl, rfl⟩
    exact ⟨pre, _, rfl, fun p hp => (h p hp).2, (filterMap_none h).symm, .inr ⟨post, rfl⟩⟩

theorem chainOf_end {l : List Pem} {cs : List Nat} (h : ∀ p ∈ l, plain p = none ∧ isBad p = false) : ChainOf l cs ↔ cs = [] := by
  constructor
  · rintro ⟨mid, post, h1, h2, h3, h4⟩
    rw [h3, List.filterMap_eq_nil_iff]
    intro p hp; exact (h p (by rw [h1]; simp [hp])).1
  · rintro rfl
    exact ⟨l, [], by simp, fun p hp => (h p hp).2, (filterMap_none h).symm, .inl rfl⟩

/-! ## The chain -/

/-- objects not yet made have no reference -/
def Fresh (w : World) : Prop := (∀ x : X509, w.next ≤ x.id → w.refs x = 0) ∧ ∀ k, w.next ≤ k → w.krefs k = 0

/-- the fields a function keeps -/
structure Same (w w' : World) : Prop where
  krefs : w'.krefs = w.krefs
  ctxs : w'.ctxs = w.ctxs
  tried : w'.tried = w.tried
  next : w.next ≤ w'.next

theorem Same.refl (w : World) : Same w w := ⟨rfl, rfl, rfl, Nat.le_refl _⟩

theorem Same.trans {a b c : World} (h : Same a b) (g : Same b c) : Same a c :=
  ⟨g.krefs.trans h.krefs, g.ctxs.trans h.ctxs, g.tried.trans h.tried, Nat.le_trans h.next g.next⟩

theorem newX509_fresh {w : World} (h : Fresh w) (n : Nat) : Fresh (newX509 w n).1 := by
  constructor
  · intro x hx
    simp only [newX509, upd] at hx ⊢
    rw [if_neg (by rintro rfl; simp at hx; omega)]
    exact h.1 x (by omega)
  · intro k hk; simp only [newX509] at hk ⊢; exact h.2 k (by omega)

theorem newX509_refs {w : World} (h : Fresh w) (n : Nat) (y : X509) : (newX509 w n).1.refs y = w.refs y + [(newX509 w n).2].count y := by
  simp only [newX509, upd]
  by_cases e : y = ⟨w.next, n⟩
  · rw [if_pos e, e, h.1 _ (Nat.le_refl _)]; simp
  · rw [if_neg e, List.count_cons_of_ne (Ne.symm e)]; simp

theorem chainLoop_spec (env : Env) (x : X509) (l : List Pem) : ∀ (w : World) (chain : List X509) (k : Nat), Fresh w → 0 < w.bios → 0 < w.stacks →
    (∀ y, (x :: chain).count y ≤ w.refs y) →
    ∃ w', Same w w' ∧ Fresh w' ∧
      ((∃ new, chainLoop env w x chain k l = some (w', some (chain ++ new)) ∧ ChainOf l (new.map X509.cert) ∧ (∀ i < new.length, env.pushOk (k + i) = true) ∧
          (∀ y, w'.refs y = w.refs y + new.count y) ∧ w'.bios = w.bios ∧ w'.stacks = w.stacks) ∨
       (∃ leak : List X509, chainLoop env w x chain k l = some (w', none) ∧ (∀ cs, ChainOf l cs → ∃ i < cs.length, env.pushOk (k + i) = false) ∧
          (∀ y, w'.refs y + (x :: chain).count y = w.refs y + leak.count y) ∧ w'.bios + 1 = w.bios ∧ w'.stacks + 1 = w.stacks ∧
          (leak = [] ∨ ∃ t, leak = [t] ∧ w.next ≤ t.id ∧ ∃ i, env.pushOk i = false))) := by
  induction hl : l.length using Nat.strongRecOn generalizing l with
  | ind m ih =>
    subst hl
    intro w chain k hf hb hs hc
    rcases readX509_spec l with ⟨n, l', pre, h1, h2, h3⟩ | ⟨r, pre, post, h1, h2, h3⟩ | ⟨h1, h2⟩
    · -- one more certificate
      have hlt := readX509_lt h1
      have hfr := newX509_fresh hf n
      have hrf := newX509_refs hf n
      have hE : chainLoop env w x chain k l =
          (if !env.pushOk k then (bioFree (newX509 w n).1).bind fun w => (x509Free w x).bind fun w => (popFree w chain).map (·, none)
          else chainLoop env (newX509 w n).1 x (chain ++ [(newX509 w n).2]) (k + 1) l') := by
        rw [chainLoop]
        split
        · rename_i e; rw [h1] at e; cases e
        · rename_i n' l2 e; rw [h1] at e; cases e; rfl
      obtain ⟨w1, hw1⟩ : ∃ w1, w1 = (newX509 w n).1 := ⟨_, rfl⟩
      obtain ⟨t, ht⟩ : ∃ t, t = (newX509 w n).2 := ⟨_, rfl⟩
      have htid : w.next ≤ t.id ∧ t.cert = n := by rw [ht]; simp [newX509]
      have hS1 : Same w w1 := by rw [hw1]; exact ⟨rfl, rfl, rfl, Nat.le_succ _⟩
      have hb1 : w1.bios = w.bios := by rw [hw1]; rfl
      have hs1 : w1.stacks = w.stacks := by rw [hw1]; rfl
      rw [← hw1, ← ht] at hE hrf
      rw [← hw1] at hfr
      have hc1 : ∀ y, (x :: chain).count y ≤ w1.refs y := fun y => by have := hc y; have := hrf y; omega
      by_cases hp : env.pushOk k = true
      · have hE' : chainLoop env w x chain k l = chainLoop env w1 x (chain ++ [t]) (k + 1) l' := by rw [hE, hp]; rfl
        have hc2 : ∀ y, (x :: (chain ++ [t])).count y ≤ w1.refs y := by
          intro y
          have e : (x :: (chain ++ [t])).count y = (x :: chain).count y + [t].count y := by rw [← List.cons_append, List.count_append]
          rw [e, hrf y]; have := hc y; omega
        obtain ⟨w', hS, hF, h⟩ := ih l'.length hlt l' rfl w1 (chain ++ [t]) (k + 1) hfr (by omega) (by omega) hc2
        refine ⟨w', hS1.trans hS, hF, ?_⟩
        rcases h with ⟨new, g1, g2, g3, g4, g5, g6⟩ | ⟨leak, g1, g2, g3, g4, g5, g6⟩
        · refine .inl ⟨t :: new, by rw [hE', g1]; simp, ?_, ?_, ?_, by omega, by omega⟩
          · rw [h2, chainOf_step h3]; exact ⟨new.map X509.cert, by rw [List.map_cons, htid.2], g2⟩
          · intro i hi
            cases i with
            | zero => exact hp
            | succ i => have := g3 i (by simpa using hi); rwa [show k + (i + 1) = k + 1 + i by omega]
          · intro y
            have e : (t :: new).count y = [t].count y + new.count y := by rw [← List.count_append]; rfl
            rw [g4 y, hrf y, e]; omega
        · refine .inr ⟨leak, by rw [hE', g1], ?_, ?_, by omega, by omega, ?_⟩
          · intro cs hcs
            rw [h2, chainOf_step h3] at hcs
            obtain ⟨cs', rfl, hcs⟩ := hcs
            obtain ⟨i, hi, hi2⟩ := g2 cs' hcs
            exact ⟨i + 1, by simpa using hi, by rwa [show k + (i + 1) = k + 1 + i by omega]⟩
          · intro y
            have e : (x :: (chain ++ [t])).count y = (x :: chain).count y + [t].count y := by rw [← List.cons_append, List.count_append]
            have := g3 y
            rw [e, hrf y] at this
            omega
          · rcases g6 with h | ⟨q, e1, e2, e3⟩
            · exact .inl h
            · exact .inr ⟨q, e1, Nat.le_trans hS1.next e2, e3⟩
      · have hp' : env.pushOk k = false := by simpa using hp
        refine ⟨{ w1 with bios := w1.bios - 1, stacks := w1.stacks - 1, refs := fun y => w1.refs y - (x :: chain).count y }, hS1.trans ⟨rfl, rfl, rfl, Nat.le_refl _⟩, ?_, .inr ⟨[t], ?_, ?_, ?_, ?_, ?_, ?_⟩⟩
        · refine ⟨fun y hy => ?_, hfr.2⟩
          have := hfr.1 y hy
          simp only; omega
        · rw [hE, hp']
          exact chainFail_eq w1 x chain (by omega) (by omega) hc1
        · intro cs hcs
          rw [h2, chainOf_step h3] at hcs
          obtain ⟨cs', rfl, _⟩ := hcs
          exact ⟨0, by simp, hp'⟩
        · intro y; simp only; have := hc y; have := hrf y; omega
        · simp only; omega
        · simp only; omega
        · exact .inr ⟨t, rfl, htid.1, k, hp'⟩
    · have hE : chainLoop env w x chain k l = (if r = noStart then some (w, some chain)
          else (bioFree w).bind fun w => (x509Free w x).bind fun w => (popFree w chain).map (·, none)) := by
        rw [chainLoop]
        split
        · rename_i r' e; rw [h1] at e; cases e; rfl
        · rename_i e; rw [h1] at e; cases e
      by_cases hr : r = noStart
      · refine ⟨w, Same.refl w, hf, .inl ⟨[], by rw [hE, if_pos hr]; simp, ?_, by simp, by simp, rfl, rfl⟩⟩
        rw [h2, chainOf_bad h3]; exact ⟨hr, rfl⟩
      · refine ⟨{ w with bios := w.bios - 1, stacks := w.stacks - 1, refs := fun y => w.refs y - (x :: chain).count y }, ⟨rfl, rfl, rfl, Nat.le_refl _⟩, ?_, .inr ⟨[], ?_, ?_, ?_, ?_, ?_, .inl rfl⟩⟩
        · refine ⟨fun y hy => ?_, hf.2⟩
          have := hf.1 y hy
          simp only; omega
        · rw [hE, if_neg hr]; exact chainFail_eq w x chain hb hs hc
        · intro cs hcs; rw [h2, chainOf_bad h3] at hcs; exact absurd hcs.1 hr
        · intro y; simp only [List.count_nil]; have := hc y; omega
        · simp only; omega
        · simp only; omega
    · have hE : chainLoop env w x chain k l = some (w, some chain) := by
        rw [chainLoop]
        split
        · rename_i r' e; rw [h1] at e; cases e; rfl
        · rename_i e; rw [h1] at e; cases e
      refine ⟨w, Same.refl w, hf, .inl ⟨[], by rw [hE]; simp, ?_, by simp, by simp, rfl, rfl⟩⟩
      exact (chainOf_end h2).2 rfl

/-! ## Opening -/

theorem openSrc_some {env : Env} {w w' : World} {src : Bytes} {l : List Pem} (h : openSrc env w src = some (w', l)) :
    Opens env src l ∧ w' = { w with bios := w.bios + 1 } := by
  unfold openSrc at h
  split at h
  · rename_i hd
    split at h
    · rename_i hm
      cases h
      exact ⟨.inl ⟨src.drop 5, by rw [← hd, List.take_append_drop], hm, rfl⟩, rfl⟩
    · cases h
  · rename_i hd
    split at h
    · cases h
    · rename_i l' hl
      cases h
      refine ⟨.inr ⟨?_, hl⟩, rfl⟩
      rintro t rfl
      exact hd rfl

theorem openSrc_none {env : Env} {w : World} {src : Bytes} (h : openSrc env w src = none) : ∀ l, ¬ Opens env src l := by
  unfold openSrc at h
  rintro l (⟨t, rfl, hm, rfl⟩ | ⟨h1, h2⟩)
  · rw [if_pos (by rfl : List.take 5 (dataPrefix ++ t) = dataPrefix), hm] at h; cases h
  · rw [if_neg, h2] at h
    · cases h
    · intro hd; exact h1 (src.drop 5) (by rw [← hd, List.take_append_drop])

theorem Opens.unique {env : Env} {src : Bytes} {l l' : List Pem} (h : Opens env src l) (h' : Opens env src l') : l = l' := by
  rcases h with ⟨t, rfl, _, rfl⟩ | ⟨h1, h2⟩ <;> rcases h' with ⟨t', e, _, rfl⟩ | ⟨h1', h2'⟩
  · rw [List.append_cancel_left e]
  · exact absurd rfl (h1' t)
  · exact absurd e (h1 t')
  · rw [h2] at h2'; exact Option.some.inj h2'

/-! ## The certificate -/

theorem readAux_spec (l : List Pem) :
    (∃ n l' pre leaf, readAux l = .ok (n, l') ∧ l = pre ++ leaf :: l' ∧ (leaf = .cert n ∨ leaf = .trusted n) ∧ ∀ p ∈ pre, isCert p = false) ∨
    (∃ r, readAux l = .error r ∧ ((∃ pre r' post, l = pre ++ .badCert r' :: post ∧ ∀ p ∈ pre, isCert p = false) ∨ ∀ p ∈ l, isCert p = false)) := by
  induction l with
  | nil => exact .inr ⟨_, rfl, .inr (by simp)⟩
  | cons p l ih =>
    cases p with
    | cert n => exact .inl ⟨n, l, [], _, rfl, rfl, .inl rfl, by simp⟩
    | trusted n => exact .inl ⟨n, l, [], _, rfl, rfl, .inr rfl, by simp⟩
    | badCert r => exact .inr ⟨r, rfl, .inl ⟨[], r, l, rfl, by simp⟩⟩
    | _ =>
      simp only [readAux]
      rcases ih with ⟨n, l', pre, leaf, h1, h2, h3, h4⟩ | ⟨r, h1, ⟨pre, r', post, h2, h3⟩ | h2⟩
      · exact .inl ⟨n, l', _ :: pre, leaf, h1, by rw [h2]; rfl, h3, fun q hq => by rcases List.mem_cons.1 hq with rfl | hq; rfl; exact h4 q hq⟩
      · exact .inr ⟨r, h1, .inl ⟨_ :: pre, r', post, by rw [h2]; rfl, fun q hq => by rcases List.mem_cons.1 hq with rfl | hq; rfl; exact h3 q hq⟩⟩
      · exact .inr ⟨r, h1, .inr (fun q hq => by rcases List.mem_cons.1 hq with rfl | hq; rfl; exact h2 q hq)⟩

/-- the first block a first read does not skip is determined -/
theorem first_cert_unique {pre pre' : List Pem} {p p' : Pem} {post post' : List Pem} (h : pre ++ p :: post = pre' ++ p' :: post')
    (h1 : ∀ q ∈ pre, isCert q = false) (h1' : ∀ q ∈ pre', isCert q = false) (h2 : isCert p = true) (h2' : isCert p' = true) :
    pre = pre' ∧ p = p' ∧ post = post' := by
  induction pre generalizing pre' with
  | nil =>
    cases pre' with
    | nil => simpa using h
    | cons q pre' =>
      simp only [List.nil_append, List.cons_append, List.cons.injEq] at h
      have := h1' q (by simp)
      rw [← h.1, h2] at this; cases this
  | cons q pre ih =>
    cases pre' with
    | nil =>
      simp only [List.nil_append, List.cons_append, List.cons.injEq] at h
      have := h1 q (by simp)
      rw [h.1, h2'] at this; cases this
    | cons q' pre' =>
      simp only [List.cons_append, List.cons.injEq] at h
      have := ih h.2 (fun q hq => h1 q (by simp [hq])) (fun q hq => h1' q (by simp [hq]))
      exact ⟨by rw [h.1, this.1], this.2⟩

/-- `n` and `cs` can be loaded from the source -/
def Loads (env : Env) (src : Bytes) (n : Nat) (cs : List Nat) : Prop :=
  env.stackOk = true ∧ (∀ i < cs.length, env.pushOk i = true) ∧ ∃ items, Opens env src items ∧ CertText items n cs

theorem loadCertificate_spec (env : Env) (w : World) (src : Bytes) (hf : Fresh w) :
    ∃ w', Same w w' ∧ Fresh w' ∧ w'.bios = w.bios ∧
      ((∃ x chain, loadCertificate env w src = some (w', some (x, chain)) ∧ Loads env src x.cert (chain.map X509.cert) ∧
          (∀ y, w'.refs y = w.refs y + (x :: chain).count y) ∧ w'.stacks = w.stacks + 1 ∧ w.next ≤ x.id) ∨
       (∃ leak : List X509, loadCertificate env w src = some (w', none) ∧ (∀ n cs, ¬ Loads env src n cs) ∧
          (∀ y, w'.refs y = w.refs y + leak.count y) ∧ w'.stacks = w.stacks ∧
          (leak = [] ∨ ∃ t, leak = [t] ∧ w.next ≤ t.id ∧ ∃ i, env.pushOk i = false))) := by
  unfold loadCertificate
  split
  · rename_i ho
    refine ⟨w, Same.refl w, hf, rfl, .inr ⟨[], rfl, ?_, by simp, rfl, .inl rfl⟩⟩
    rintro n cs ⟨_, _, items, hO, _⟩
    exact openSrc_none ho items hO
  · rename_i w0 l ho
    obtain ⟨hO, rfl⟩ := openSrc_some ho
    rcases readAux_spec l with ⟨n, l', pre, leaf, h1, h2, h3, h4⟩ | ⟨r, h1, h2⟩
    · rw [h1]
      simp only
      obtain ⟨w0, hw0⟩ : ∃ w0 : World, w0 = { w with bios := w.bios + 1 } := ⟨_, rfl⟩
      have hf0 : Fresh w0 := by rw [hw0]; exact hf
      rw [← hw0]
      have hfr := newX509_fresh hf0 n
      have hrf := newX509_refs hf0 n
      have ht1 : (newX509 w0 n).2.cert = n := rfl
      have ht2 : w.next ≤ (newX509 w0 n).2.id := by rw [hw0]; exact Nat.le_refl _
      have hS : Same w (newX509 w0 n).1 := by rw [hw0]; exact ⟨rfl, rfl, rfl, Nat.le_succ _⟩
      have hb : (newX509 w0 n).1.bios = w.bios + 1 := by rw [hw0]; rfl
      have hs : (newX509 w0 n).1.stacks = w.stacks := by rw [hw0]; rfl
      have hr0 : ∀ y, w0.refs y = w.refs y := by rw [hw0]; exact fun _ => rfl
      generalize (newX509 w0 n).1 = w1 at *
      generalize (newX509 w0 n).2 = x at *
      have hx1 : 0 < w1.refs x := by rw [hrf]; simp
      have hCT : ∀ cs, ChainOf l' cs → CertText l n cs := fun cs hcs => ⟨pre, leaf, l', h2, h4, h3, hcs⟩
      have hCT' : ∀ m cs, CertText l m cs → m = n ∧ ChainOf l' cs := by
        rintro m cs ⟨pre', leaf', rest', e1, e2, e3, e4⟩
        have hl : isCert leaf = true := by rcases h3 with rfl | rfl <;> rfl
        have hl' : isCert leaf' = true := by rcases e3 with rfl | rfl <;> rfl
        obtain ⟨_, rfl, rfl⟩ := first_cert_unique (h2.symm.trans e1) h4 e2 hl hl'
        refine ⟨?_, e4⟩
        rcases h3 with rfl | rfl <;> rcases e3 with e | e <;> simp_all
      by_cases hst : env.stackOk = true
      · rw [if_neg (by simp [hst])]
        obtain ⟨w2, hw2⟩ : ∃ w2 : World, w2 = { w1 with stacks := w1.stacks + 1 } := ⟨_, rfl⟩
        have k1 : w2.bios = w.bios + 1 := by rw [hw2]; exact hb
        have k2 : w2.stacks = w.stacks + 1 := by rw [hw2]; simp only; omega
        have k3 : w2.refs = w1.refs := by rw [hw2]
        have k4 : Same w w2 := hS.trans (by rw [hw2]; exact ⟨rfl, rfl, rfl, Nat.le_refl _⟩)
        have k5 : Fresh w2 := by rw [hw2]; exact hfr
        have k6 : w.next ≤ w2.next := k4.next
        rw [← hw2]
        obtain ⟨w', gS, gF, g⟩ := chainLoop_spec env x l' w2 [] 0 k5 (by omega) (by omega) (by intro y; rw [k3, hrf y]; omega)
        rcases g with ⟨new, g1, g2, g3, g4, g5, g6⟩ | ⟨leak, g1, g2, g3, g4, g5, g6⟩
        · rw [g1]
          simp only [List.nil_append]
          rw [bioFree_eq w' (by omega)]
          refine ⟨{ w' with bios := w'.bios - 1 }, k4.trans ⟨gS.krefs, gS.ctxs, gS.tried, gS.next⟩, gF, ?_, .inl ⟨x, new, rfl, ?_, ?_, ?_, ht2⟩⟩
          · simp only; omega
          · refine ⟨hst, ?_, l, hO, ?_⟩
            · intro i hi; rw [List.length_map] at hi; simpa using g3 i hi
            · rw [ht1]; exact hCT _ g2
          · intro y
            have e : (x :: new).count y = [x].count y + new.count y := by rw [← List.count_append]; rfl
            simp only
            rw [g4 y, k3, hrf y, hr0 y, e]; omega
          · simp only; omega
        · rw [g1]
          simp only
          refine ⟨w', k4.trans gS, gF, by omega, .inr ⟨leak, rfl, ?_, ?_, by omega, ?_⟩⟩
          · rintro m cs ⟨_, hp, items, hO', hT⟩
            obtain rfl := hO.unique hO'
            obtain ⟨rfl, hcs⟩ := hCT' m cs hT
            obtain ⟨i, hi, hi'⟩ := g2 cs hcs
            have := hp i hi
            rw [Nat.zero_add] at hi'
            rw [hi'] at this; cases this
          · intro y; have := g3 y; rw [k3, hrf y, hr0 y] at this; omega
          · rcases g6 with h | ⟨t, e1, e2, e3⟩
            · exact .inl h
            · exact .inr ⟨t, e1, by omega, e3⟩
      · rw [if_pos (by simp [hst])]
        have hb' : 0 < w1.bios := by omega
        rw [bioFree_eq w1 hb']
        simp only [Option.bind_some]
        rw [x509Free_eq { w1 with bios := w1.bios - 1 } x hx1]
        refine ⟨{ w1 with bios := w1.bios - 1, refs := fun y => w1.refs y - [x].count y }, hS.trans ⟨rfl, rfl, rfl, Nat.le_refl _⟩, ⟨?_, hfr.2⟩, ?_, .inr ⟨[], rfl, ?_, ?_, ?_, .inl rfl⟩⟩
        · intro y hy; have := hfr.1 y hy; simp only; omega
        · simp only; omega
        · rintro m cs ⟨h, _⟩; exact hst h
        · intro y; simp only [List.count_nil]; rw [hrf y, hr0 y]; omega
        · exact hs
    · rw [h1]
      simp only
      rw [bioFree_eq _ (by simp)]
      refine ⟨w, Same.refl w, hf, rfl, .inr ⟨[], by simp, ?_, by simp, rfl, .inl rfl⟩⟩
      rintro m cs ⟨_, _, items, hO', pre', leaf', rest', e1, e2, e3, e4⟩
      obtain rfl := hO.unique hO'
      have hl' : isCert leaf' = true := by rcases e3 with rfl | rfl <;> rfl
      rcases h2 with ⟨pre, r', post, e5, e6⟩ | h2
      · obtain ⟨_, rfl, _⟩ := first_cert_unique (e5.symm.trans e1) e6 e2 rfl hl'
        rcases e3 with e | e <;> cases e
      · have := h2 leaf' (by rw [e1]; simp)
        rw [hl'] at this; cases this

/-! ## The key -/

theorem passwordCallback_eq (size : Nat) (p : Bytes) : passwordCallback size (some p) = p.take size := by
  simp only [passwordCallback]
  split
  · rfl
  · rw [List.take_of_length_le (by omega)]

theorem keyBlock_spec (l : List Pem) :
    (∃ n pw, keyBlock l = some (some (n, pw)) ∧ KeyText l n pw ∧ ∀ m q, KeyText l m q → m = n ∧ q = pw) ∨
    ((keyBlock l = none ∨ keyBlock l = some none) ∧ ∀ m q, ¬ KeyText l m q) := by
  induction l with
  | nil =>
    refine .inr ⟨.inl rfl, ?_⟩
    rintro m q ⟨pre, post, h, _⟩
    have := congrArg List.length h
    simp at this
  | cons p l ih =>
    have hs : ∀ (p : Pem), (∀ m q, p ≠ .key m q) → p ≠ .badKey → ∀ m q, KeyText (p :: l) m q ↔ KeyText l m q := by
      intro p h1 h2 m q
      constructor
      · rintro ⟨pre, post, h, hp⟩
        cases pre with
        | nil =>
          simp only [List.nil_append, List.cons.injEq] at h
          exact absurd h.1 (h1 m q)
        | cons d pre =>
          simp only [List.cons_append, List.cons.injEq] at h
          exact ⟨pre, post, h.2, fun x hx => hp x (by simp [hx])⟩
      · rintro ⟨pre, post, h, hp⟩
        refine ⟨p :: pre, post, by rw [h]; rfl, ?_⟩
        intro x hx
        rcases List.mem_cons.1 hx with rfl | hx
        · exact ⟨h1, h2⟩
        · exact hp x hx
    cases p with
    | key n pw =>
      refine .inl ⟨n, pw, rfl, ⟨[], l, rfl, by simp⟩, ?_⟩
      rintro m q ⟨pre, post, h, hp⟩
      cases pre with
      | nil => simp only [List.nil_append, List.cons.injEq, Pem.key.injEq] at h; exact ⟨h.1.1.symm, h.1.2.symm⟩
      | cons d pre =>
        simp only [List.cons_append, List.cons.injEq] at h
        exact absurd h.1.symm ((hp d (by simp)).1 n pw)
    | badKey =>
      refine .inr ⟨.inr rfl, ?_⟩
      rintro m q ⟨pre, post, h, hp⟩
      cases pre with
      | nil => simp at h
      | cons d pre =>
        simp only [List.cons_append, List.cons.injEq] at h
        exact absurd h.1.symm (hp d (by simp)).2
    | cert n =>
      simp only [keyBlock, hs (.cert n) (by simp) (by simp)]
      exact ih
    | trusted n =>
      simp only [keyBlock, hs (.trusted n) (by simp) (by simp)]
      exact ih
    | badCert r =>
      simp only [keyBlock, hs (.badCert r) (by simp) (by simp)]
      exact ih
    | other =>
      simp only [keyBlock, hs (.other) (by simp) (by simp)]
      exact ih

/-- what the attempts with passwords `given` in this order do: the result and the passwords tried -/
def Tries (n : Nat) (pw : Bytes) (given : List Bytes) (res : Option Nat) (tried : List Bytes) : Prop :=
  (∃ a b, given = a ++ pw :: b ∧ pw ∉ a ∧ res = some n ∧ tried = a ++ [pw]) ∨ (pw ∉ given ∧ res = none ∧ tried = given)

theorem keyLoop_enc (env : Env) (l : List Pem) (n : Nat) (pw : Bytes) (ps : List Bytes) (hk : keyBlock l = some (some (n, some pw))) (t : Nat) :
    ∀ (w : World) (i : Nat), i + t = ps.length → 0 < t →
      ∃ res tr, Tries n pw ((ps.drop i).map (·.take pemBuf)) res tr ∧
        keyLoop env w l (some ps) i t = some ({ w with tried := tr.reverse ++ w.tried }, res) := by
  induction t with
  | zero => intro w i _ h; omega
  | succ t ih =>
    intro w i hi _
    have hlt : i < ps.length := by omega
    have hg : ps[i]? = some ps[i] := List.getElem?_eq_getElem hlt
    have hd : (ps.drop i).map (·.take pemBuf) = ps[i].take pemBuf :: (ps.drop (i + 1)).map (·.take pemBuf) := by
      rw [List.drop_eq_getElem_cons hlt]; rfl
    have hr : readKey env w l (some ps) i = some ({ w with tried := ps[i].take pemBuf :: w.tried }, if ps[i].take pemBuf = pw then some n else none) := by
      unfold readKey; rw [hk]; simp only [hg, passwordCallback_eq]
    rw [keyLoop, hr, hd]
    by_cases he : ps[i].take pemBuf = pw
    · rw [if_pos he]
      exact ⟨some n, [pw], .inl ⟨[], _, by rw [he]; rfl, by simp, rfl, rfl⟩, by rw [he]; rfl⟩
    · rw [if_neg he]
      simp only
      by_cases ht : t + 1 > 1
      · rw [if_pos ht]
        obtain ⟨res, tr, h1, h2⟩ := ih { w with tried := ps[i].take pemBuf :: w.tried } (i + 1) (by omega) (by omega)
        refine ⟨res, ps[i].take pemBuf :: tr, ?_, ?_⟩
        · rcases h1 with ⟨a, b, e1, e2, e3, e4⟩ | ⟨e1, e2, e3⟩
          · refine .inl ⟨ps[i].take pemBuf :: a, b, by rw [e1]; rfl, ?_, e3, by rw [e4]; rfl⟩
            rintro h
            rcases List.mem_cons.1 h with h | h
            · exact he h.symm
            · exact e2 h
          · refine .inr ⟨?_, e2, by rw [e3]⟩
            rintro h
            rcases List.mem_cons.1 h with h | h
            · exact he h.symm
            · exact e1 h
        · rw [h2]; simp
      · rw [if_neg ht]
        have ht0 : ps.drop (i + 1) = [] := List.drop_eq_nil_of_le (by omega)
        rw [ht0]
        exact ⟨none, [ps[i].take pemBuf], .inr ⟨by simpa using fun h => he h.symm, rfl, rfl⟩, rfl⟩

/-- the passwords OpenSSL is given, if it asks -/
def candidates (env : Env) (pws : Option (List Bytes)) : List Bytes :=
  match pws with
  | some ps => ps.map (·.take pemBuf)
  | none => [env.tty]

/-- outcome of reading the key of a text -/
def KeyOutcome (env : Env) (items : List Pem) (pws : Option (List Bytes)) (res : Option Nat) (tried : List Bytes) : Prop :=
  (∃ n, KeyText items n none ∧ res = some n ∧ tried = []) ∨ (∃ n pw, KeyText items n (some pw) ∧ Tries n pw (candidates env pws) res tried) ∨
  ((∀ n pw, ¬ KeyText items n pw) ∧ res = none ∧ tried = [])

theorem keyLoop_const (env : Env) (w : World) (l : List Pem) (pws : Option (List Bytes)) (res : Option Nat)
    (h : ∀ i, readKey env w l pws i = some (w, res)) (t : Nat) : ∀ i, keyLoop env w l pws i t = some (w, res) := by
  induction t with
  | zero => intro i; exact h i
  | succ t ih =>
    intro i
    rw [keyLoop, h]
    cases res with
    | some n => rfl
    | none =>
      simp only
      split
      · exact ih (i + 1)
      · rfl

theorem keyLoop_spec (env : Env) (w : World) (l : List Pem) (pws : Option (List Bytes)) (hp : pws ≠ some []) :
    ∃ res tr, KeyOutcome env l pws res tr ∧
      keyLoop env w l pws 0 (tries pws) = some ({ w with tried := tr.reverse ++ w.tried }, res) := by
  rcases keyBlock_spec l with ⟨n, pw, h1, h2, _⟩ | ⟨h1, h2⟩
  · cases pw with
    | none =>
      refine ⟨some n, [], .inl ⟨n, h2, rfl, rfl⟩, ?_⟩
      exact keyLoop_const env w l pws (some n) (fun i => by unfold readKey; rw [h1]) _ 0
    | some pw =>
      cases pws with
      | none =>
        simp only [tries, keyLoop, readKey, h1]
        by_cases he : env.tty = pw
        · refine ⟨some n, [env.tty], .inr (.inl ⟨n, pw, h2, .inl ⟨[], [], ?_, by simp, rfl, ?_⟩⟩), ?_⟩
          · simp [candidates, he]
          · simp [he]
          · rw [if_pos he]; rfl
        · refine ⟨none, [env.tty], .inr (.inl ⟨n, pw, h2, .inr ⟨?_, rfl, rfl⟩⟩), ?_⟩
          · simpa [candidates] using fun h => he h.symm
          · rw [if_neg he]; rfl
      | some ps =>
        have hl : 0 < ps.length := List.length_pos_iff.2 (fun h => hp (by rw [h]))
        obtain ⟨res, tr, e1, e2⟩ := keyLoop_enc env l n pw ps h1 ps.length w 0 (by omega) hl
        exact ⟨res, tr, .inr (.inl ⟨n, pw, h2, e1⟩), e2⟩
  · refine ⟨none, [], .inr (.inr ⟨h2, rfl, rfl⟩), ?_⟩
    exact keyLoop_const env w l pws none (fun i => by unfold readKey; rcases h1 with h | h <;> rw [h]) _ 0

/-- the key `n` can be read from the source, after the attempts `tried` -/
theorem loadKey_spec (env : Env) (w : World) (src : Bytes) (pws : Option (List Bytes)) (hp : pws ≠ some []) (hf : Fresh w) :
    ∃ w' tr, w'.refs = w.refs ∧ w'.bios = w.bios ∧ w'.stacks = w.stacks ∧ w'.ctxs = w.ctxs ∧ w.next ≤ w'.next ∧ Fresh w' ∧ w'.tried = tr.reverse ++ w.tried ∧
      ((∃ k n items, loadKey env w src pws = some (w', some (k, n)) ∧ Opens env src items ∧ KeyOutcome env items pws (some n) tr ∧ w.krefs k = 0 ∧
          w'.krefs = upd w.krefs k 1) ∨
       (loadKey env w src pws = some (w', none) ∧ w'.krefs = w.krefs ∧
          ((∀ items, ¬ Opens env src items) ∧ tr = [] ∨ ∃ items, Opens env src items ∧ KeyOutcome env items pws none tr))) := by
  unfold loadKey
  split
  · rename_i ho
    exact ⟨w, [], rfl, rfl, rfl, rfl, Nat.le_refl _, hf, rfl, .inr ⟨rfl, rfl, .inl ⟨openSrc_none ho, rfl⟩⟩⟩
  · rename_i w0 l ho
    obtain ⟨hO, rfl⟩ := openSrc_some ho
    obtain ⟨res, tr, h1, h2⟩ := keyLoop_spec env { w with bios := w.bios + 1 } l pws hp
    simp only
    rw [h2]
    cases res with
    | none =>
      simp only
      rw [bioFree_eq _ (by simp)]
      refine ⟨{ w with tried := tr.reverse ++ w.tried }, tr, rfl, rfl, rfl, rfl, Nat.le_refl _, hf, rfl, .inr ⟨?_, rfl, .inr ⟨l, hO, h1⟩⟩⟩
      simp
    | some n =>
      simp only
      rw [bioFree_eq _ (by simp)]
      refine ⟨{ w with tried := tr.reverse ++ w.tried, krefs := upd w.krefs w.next 1, next := w.next + 1 }, tr, rfl, rfl, rfl, rfl, Nat.le_succ _, ?_, rfl,
        .inl ⟨w.next, n, l, by simp, hO, h1, hf.2 _ (Nat.le_refl _), rfl⟩⟩
      constructor
      · intro x hx; exact hf.1 x (by simp only at hx; omega)
      · intro k hk
        simp only [upd] at hk ⊢
        rw [if_neg (by omega)]; exact hf.2 k (by omega)

end Kasync.Tls.Cert
