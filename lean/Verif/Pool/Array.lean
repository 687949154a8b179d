import Verif.Pool.Props

/-!
# The dynamic array in a pool, src/kmalloc.c:233-351, include/kmalloc.h:120-147

The array structure is the record `Arr` (it lives at `self`, 40 bytes); memory contents are a function from addresses to
bytes.  The pool writes its own records (block headers, list entries) and the system may put anything in memory that the
pool does not own: such changes are arbitrary (`PoolWrites`).  Products in `size_t` are unbounded.
-/

namespace Kasync.Pool

abbrev Mem := Nat → Nat

/-- `kgl_array_t`, include/kmalloc.h:120-126 -/
structure Arr where
  self : Nat
  elts : Nat
  nelts : Nat
  size : Nat
  nalloc : Nat
  deriving Repr, DecidableEq

/-- memory of the elements -/
def Arr.region (a : Arr) : Region := ⟨a.elts, a.size * a.nalloc⟩

/-- move `d.last` of the pool's first block -/
def setLast (p : Pool) (x : Nat) : Pool :=
  match p.blocks with
  | [] => p
  | b :: bs => { p with blocks := { b with last := x } :: bs }

/-- `d.last` and `d.end` of the pool's first block -/
def headLast (p : Pool) : Nat := (p.blocks.head?.map Block.last).getD 0
def headEnd (p : Pool) : Nat := (p.blocks.head?.map (fun b => b.base + b.size)).getD 0

/-- A copy `memcpy(dst, src, len)` to be done. -/
structure Copy where
  dst : Nat
  src : Nat
  len : Nat
  deriving Repr, DecidableEq

/-- Growing a full array by room for `k` elements: src/kmalloc.c:272-298 (`kgl_array_push`, `k = 1`, `newAlloc` twice the old
capacity, the whole old array is copied) and 317-342 (`kgl_array_push_n`). The client's block list is kept up to date: the
block of the array is extended in place, or a new block is added and the old one stays. `none` is undefined behaviour,
`some none` NULL. -/
def arrayGrow (s : St) (a : Arr) (k newAlloc copyLen : Nat) (o1 o2 : Option Nat) : Option (Option (St × Arr × Option Copy)) :=
  if a.elts + a.size * a.nalloc = headLast s.pool ∧ headLast s.pool + k * a.size ≤ headEnd s.pool then
    some (some ({ s with pool := setLast s.pool (headLast s.pool + k * a.size),
                         user := ⟨a.elts, a.size * (a.nalloc + k)⟩ :: s.user.erase a.region },
                { a with nalloc := a.nalloc + k }, none))
  else
    match palloc s.pool s.sys (newAlloc * a.size) true o1 o2 with
    | none => none
    | some (_, _, none) => some none
    | some (p, sys, some m) =>
      some (some ({ s with pool := p, sys := sys, user := ⟨m, newAlloc * a.size⟩ :: s.user },
                  { a with elts := m, nalloc := newAlloc }, some ⟨m, a.elts, copyLen⟩))

/-- `kgl_array_push`, src/kmalloc.c:263-305: new state, copy, address of the slot -/
def arrayPush (s : St) (a : Arr) (o1 o2 : Option Nat) : Option (Option (St × Arr × Option Copy × Nat)) :=
  (if a.nelts = a.nalloc then arrayGrow s a 1 (2 * a.nalloc) (a.size * a.nalloc) o1 o2 else some (some (s, a, none))).map
    (fun r => r.map (fun (s, a, c) => (s, { a with nelts := a.nelts + 1 }, c, a.elts + a.size * a.nelts)))

/-- `kgl_array_push_n`, src/kmalloc.c:307-351 -/
def arrayPushN (s : St) (a : Arr) (n : Nat) (o1 o2 : Option Nat) : Option (Option (St × Arr × Option Copy × Nat)) :=
  (if a.nelts + n > a.nalloc then
      arrayGrow s a n (2 * (if n ≥ a.nalloc then n else a.nalloc)) (a.nelts * a.size) o1 o2
    else some (some (s, a, none))).map
    (fun r => r.map (fun (s, a, c) => (s, { a with nelts := a.nelts + n }, c, a.elts + a.size * a.nelts)))

/-- `kgl_array_create`, src/kmalloc.c:233-246, and `kgl_array_init`, include/kmalloc.h:136-146, when both allocations succeed -/
def arrayCreate (s : St) (n size : Nat) (o1 o2 o3 o4 : Option Nat) : Option (Option (St × Arr)) :=
  match palloc s.pool s.sys 40 true o1 o2 with
  | none => none
  | some (_, _, none) => some none
  | some (p, sys, some self) =>
    match palloc p sys (n * size) true o3 o4 with
    | none => none
    | some (_, _, none) => some none
    | some (p, sys, some elts) =>
      some (some ({ s with pool := p, sys := sys, user := ⟨elts, n * size⟩ :: ⟨self, 40⟩ :: s.user }, ⟨self, elts, 0, size, n⟩))

/-- `kgl_array_destroy`, src/kmalloc.c:248-260; the client gives up both blocks -/
def arrayDestroy (s : St) (a : Arr) : St :=
  let p := s.pool
  let p := if a.elts + a.size * a.nalloc = headLast p then setLast p (headLast p - a.size * a.nalloc) else p
  let p := if a.self + 40 = headLast p then setLast p a.self else p
  { s with pool := p, user := (s.user.erase a.region).erase ⟨a.self, 40⟩ }

/-- `memcpy`; overlapping ranges are undefined -/
def memcpy (m : Mem) : Option Copy → Option Mem
  | none => some m
  | some c =>
    if c.dst + c.len ≤ c.src ∨ c.src + c.len ≤ c.dst then
      some (fun x => if c.dst ≤ x ∧ x < c.dst + c.len then m (c.src + (x - c.dst)) else m x)
    else none

/-- the client stores bytes -/
def storeAt (m : Mem) (a : Nat) (bs : List Nat) : Mem :=
  fun x => if a ≤ x ∧ x < a + bs.length then bs.getD (x - a) 0 else m x

def readAt (m : Mem) (a n : Nat) : List Nat := (List.range n).map (fun i => m (a + i))

def Region.mem (r : Region) (x : Nat) : Prop := r.addr ≤ x ∧ x < r.addr + r.size

/-- What memory may change when the pool works: its own records, and memory it did not own before or does not own after. -/
def PoolWrites (p p' : Pool) (m m' : Mem) : Prop :=
  ∀ x, m' x ≠ m x → (∃ r ∈ records p', r.mem x) ∨ ¬ ((∃ q ∈ owned p, q.mem x) ∧ (∃ q ∈ owned p', q.mem x))

/-- A history of one array and everything else that uses the pool. `pushed` are the elements given to the array, oldest first. -/
inductive AHist (size a0 : Nat) (ext : List Region) : St → Mem → Arr → List (List Nat) → Prop where
  /-- an array created in a pool with any history -/
  | create {s s' m m' arr n sz o1 o2 o3 o4} : Hist size a0 ext s → 1 ≤ n → 1 ≤ sz → FreshFor s 40 o1 o2 →
      (∀ p sys r, palloc s.pool s.sys 40 true o1 o2 = some (p, sys, r) → FreshFor { s with pool := p, sys := sys } (n * sz) o3 o4) →
      arrayCreate s n sz o1 o2 o3 o4 = some (some (s', arr)) → PoolWrites s.pool s'.pool m m' →
      AHist size a0 ext s' m' arr []
  /-- another request to the pool, that does not free the array -/
  | other {s s' m m' arr vs o r} : AHist size a0 ext s m arr vs → Allowed s o → o ≠ .reset → o ≠ .pfree arr.elts →
      apply s o = some (s', r) → PoolWrites s.pool s'.pool m m' → AHist size a0 ext s' m' arr vs
  /-- a client stores a byte in a block of its own -/
  | write {s m arr vs r x v} : AHist size a0 ext s m arr vs → r ∈ s.user → r ≠ arr.region → r ≠ ⟨arr.self, 40⟩ → r.mem x →
      AHist size a0 ext s (storeAt m x [v]) arr vs
  /-- an element is pushed and its bytes are stored in the returned slot -/
  | push {s s' m m1 m2 arr arr' vs v o1 o2 c slot} : AHist size a0 ext s m arr vs → v.length = arr.size →
      FreshFor s (2 * arr.nalloc * arr.size) o1 o2 →
      arrayPush s arr o1 o2 = some (some (s', arr', c, slot)) → PoolWrites s.pool s'.pool m m1 → memcpy m1 c = some m2 →
      AHist size a0 ext s' (storeAt m2 slot v) arr' (vs ++ [v])
  /-- several elements are pushed -/
  | pushN {s s' m m1 m2 arr arr' vs ws o1 o2 c slot} : AHist size a0 ext s m arr vs → (∀ v ∈ ws, v.length = arr.size) →
      FreshFor s (2 * (if ws.length ≥ arr.nalloc then ws.length else arr.nalloc) * arr.size) o1 o2 →
      arrayPushN s arr ws.length o1 o2 = some (some (s', arr', c, slot)) → PoolWrites s.pool s'.pool m m1 → memcpy m1 c = some m2 →
      AHist size a0 ext s' (storeAt m2 slot ws.flatten) arr' (vs ++ ws)

/-! ## Proofs -/

structure AInv (S : Nat) (ext : List Region) (s : St) (m : Mem) (a : Arr) (vs : List (List Nat)) : Prop where
  inv : Inv S ext s
  esz : 1 ≤ a.size
  nz : 1 ≤ a.nalloc
  le : a.nelts ≤ a.nalloc
  cnt : a.nelts = vs.length
  len : ∀ v ∈ vs, v.length = a.size
  reg : a.region ∈ s.user
  content : readAt m a.elts (a.size * a.nelts) = vs.flatten

theorem readAt_congr {m m' : Mem} {a n : Nat} (h : ∀ x, a ≤ x → x < a + n → m' x = m x) : readAt m' a n = readAt m a n := by
  unfold readAt
  apply List.map_congr_left
  intro i hi
  exact h _ (by omega) (by have := List.mem_range.1 hi; omega)

theorem readAt_length (m : Mem) (a n : Nat) : (readAt m a n).length = n := by simp [readAt]

theorem readAt_add (m : Mem) (a n k : Nat) : readAt m a (n + k) = readAt m a n ++ readAt m (a + n) k := by
  unfold readAt
  rw [List.range_add, List.map_append, List.map_map]
  congr 1
  apply List.map_congr_left
  intro i _
  simp only [Function.comp]
  congr 1
  omega

theorem readAt_store (m : Mem) (a : Nat) (bs : List Nat) : readAt (storeAt m a bs) a bs.length = bs := by
  apply List.ext_getElem
  · simp [readAt]
  · intro i h1 h2
    simp only [readAt, List.getElem_map, List.getElem_range, storeAt]
    rw [if_pos (by omega)]
    simp [List.getD_eq_getElem?_getD, h2]

theorem readAt_memcpy {m m' : Mem} {c : Copy} (h : memcpy m (some c) = some m') {n : Nat} (hn : n ≤ c.len) :
    readAt m' c.dst n = readAt m c.src n := by
  simp only [memcpy] at h
  split at h
  · cases h
    unfold readAt
    apply List.map_congr_left
    intro i hi
    have := List.mem_range.1 hi
    simp only
    rw [if_pos (by omega)]
    congr 1
    omega
  · cases h

/-- the client's bytes survive the pool's work -/
theorem poolWrites_keep {S ext} {s s' : St} {m m' : Mem} (h : Inv S ext s) (h' : Inv S ext s') (hw : PoolWrites s.pool s'.pool m m')
    {r r' : Region} (hr : r ∈ s.user) (hr' : r' ∈ s'.user) (hin : Inside r r') : ∀ x, r.mem x → m' x = m x := by
  intro x hx
  refine Classical.byContradiction fun hne => ?_
  unfold Region.mem at hx
  have hin' := hin
  unfold Inside at hin'
  rcases hw x hne with ⟨k, hk, hkx⟩ | hno
  · have := h'.safe.2.2.1 r' hr' k hk
    unfold Disj at this; unfold Region.mem at hkx
    omega
  · obtain ⟨q, hq, _, hqi⟩ := h.safe.2.1 r hr
    obtain ⟨q', hq', _, hqi'⟩ := h'.safe.2.1 r' hr'
    unfold Inside at hqi hqi'
    exact hno ⟨⟨q, hq, by unfold Region.mem; omega⟩, ⟨q', hq', by unfold Region.mem; omega⟩⟩

/-- a carved region that ends at `last` of the first block lies in it -/
theorem Core.at_head {S ext b t L sys R} (h : Core S ext (b :: t) L sys R) {r : Region} (hr : r ∈ R) (he : r.addr + r.size = b.last) :
    b.base + b.hdr ≤ r.addr := by
  have hb := h.blk b (by simp)
  have hp := h.pos r hr
  rcases h.loc r hr with ⟨c, hc, h1, h2⟩ | hl
  · rcases List.mem_cons.1 hc with rfl | hc
    · exact h1
    · have hcb := h.blk c (by simp [hc])
      have hd := h.blocks_apart (l1 := []) rfl c hc
      unfold Disj Block.region at hd
      dsimp only at hd
      omega
  · have hd := h.block_large (b := b) (by simp) hl
    unfold Disj Block.region at hd
    dsimp only at hd
    omega

/-- Moving `last` of the first block to `x` when the region `r` ends there: `r` becomes `r'` (or is given up). -/
theorem Core.moveHead {S ext b t L sys R0} {r : Region} (h : Core S ext (b :: t) L sys (r :: R0)) (he : r.addr + r.size = b.last)
    {x : Nat} (hx1 : r.addr ≤ x) (hx2 : x ≤ b.base + S) (R' : List Region) (hR : R' = [] ∨ ∃ k, R' = [⟨r.addr, k⟩] ∧ 0 < k ∧ r.addr + k = x) :
    Core S ext ({ b with last := x } :: t) L sys (R' ++ R0) := by
  have hat := h.at_head (by simp) he
  have hb := h.blk b (by simp)
  have hrpos := h.pos r (by simp)
  have hR0 : ∀ q ∈ R0, (b.base + b.hdr ≤ q.addr ∧ q.addr + q.size ≤ r.addr) ∨ (∃ c ∈ t, c.base + c.hdr ≤ q.addr ∧ q.addr + q.size ≤ c.last) ∨ q ∈ L := by
    intro q hq
    have hd := (List.pairwise_cons.1 h.regs).1 q hq
    have hqp := h.pos q (by simp [hq])
    rcases h.loc q (by simp [hq]) with ⟨c, hc, h1, h2⟩ | hl
    · rcases List.mem_cons.1 hc with rfl | hc
      · refine Or.inl ⟨h1, ?_⟩
        unfold Disj at hd; omega
      · exact Or.inr (Or.inl ⟨c, hc, h1, h2⟩)
    · exact Or.inr (Or.inr hl)
  refine { big := h.big, mult := h.mult, hd := ?_, blk := ?_, perm := ?_, sysd := h.sysd, sysp := h.sysp, regs := ?_, pos := ?_, loc := ?_ }
  · obtain ⟨c, u, hc, h64⟩ := h.hd
    cases hc
    exact ⟨_, _, rfl, h64⟩
  · intro c hc
    rcases List.mem_cons.1 hc with rfl | hc
    · refine ⟨hb.1, hb.2.1, hb.2.2.1, hb.2.2.2.1, hb.2.2.2.2.1, ?_, hx2⟩
      show b.base + b.hdr ≤ x; omega
    · exact h.blk c (by simp [hc])
  · exact h.perm
  · have h0 := (List.pairwise_cons.1 h.regs).2
    rcases hR with rfl | ⟨k, rfl, hk, hkx⟩
    · exact h0
    · rw [List.singleton_append, List.pairwise_cons]
      refine ⟨fun q hq => ?_, h0⟩
      have hin : Inside ⟨r.addr, k⟩ b.region := by
        unfold Inside Block.region; dsimp only; omega
      rcases hR0 q hq with ⟨_, h2⟩ | ⟨c, hc, h1, h2⟩ | hl
      · exact Or.inr h2
      · exact (h.blocks_apart (l1 := []) rfl c hc).mono hin (h.inside (by simp [hc]) h1 h2)
      · exact (h.block_large (by simp) hl).mono hin ⟨Nat.le_refl _, Nat.le_refl _⟩
  · intro q hq
    rcases List.mem_append.1 hq with hq | hq
    · rcases hR with rfl | ⟨k, rfl, hk, hkx⟩
      · cases hq
      · rw [List.mem_singleton] at hq; subst hq; exact hk
    · exact h.pos q (by simp [hq])
  · intro q hq
    rcases List.mem_append.1 hq with hq | hq
    · rcases hR with rfl | ⟨k, rfl, hk, hkx⟩
      · cases hq
      · rw [List.mem_singleton] at hq; subst hq
        exact Or.inl ⟨_, List.mem_cons_self, hat, by show r.addr + k ≤ x; omega⟩
    · rcases hR0 q hq with ⟨h1, h2⟩ | ⟨c, hc, h1, h2⟩ | hl
      · exact Or.inl ⟨_, List.mem_cons_self, h1, by show q.addr + q.size ≤ x; omega⟩
      · exact Or.inl ⟨c, by simp [hc], h1, h2⟩
      · exact Or.inr hl

theorem moveHead_inv {S ext s} (h : Inv S ext s) {r : Region} (hr : r ∈ s.user) (he : r.addr + r.size = headLast s.pool) {x : Nat}
    (hx1 : r.addr ≤ x) (hx2 : x ≤ headEnd s.pool) (R' : List Region)
    (hR : R' = [] ∨ ∃ k, R' = [⟨r.addr, k⟩] ∧ 0 < k ∧ r.addr + k = x) :
    Inv S ext { s with pool := setLast s.pool x, user := R' ++ s.user.erase r } := by
  have hc := h.q.core
  obtain ⟨b, t, hbt, h64⟩ := hc.hd
  have hb := hc.blk b (by rw [hbt]; simp)
  have hpool : setLast s.pool x = { s.pool with blocks := { b with last := x } :: t } := by simp [setLast, hbt]
  have hhl : headLast s.pool = b.last := by simp [headLast, hbt]
  have hhe : headEnd s.pool = b.base + S := by simp [headEnd, hbt, hb.1]
  rw [hhl] at he
  rw [hhe] at hx2
  have hperm : (s.user ++ nodes s.pool).Perm (r :: (s.user.erase r ++ nodes s.pool)) := by
    rw [← List.cons_append]
    exact List.Perm.append_right _ (List.perm_cons_erase hr)
  have hc1 := hc.perm_R hperm
  rw [hbt] at hc1
  have hc2 := hc1.moveHead he hx1 hx2 R' hR
  refine ⟨⟨?_, ?_, ?_, ?_, ?_⟩, ?_⟩
  · show Core S ext (setLast s.pool x).blocks ((setLast s.pool x).large.filterMap Large.alloc) s.sys (R' ++ s.user.erase r ++ nodes (setLast s.pool x))
    rw [hpool, List.append_assoc]; exact hc2
  · show (setLast s.pool x).current < (setLast s.pool x).blocks.length
    rw [hpool]; have := h.q.cur; rw [hbt] at this; exact this
  · show (setLast s.pool x).max ≤ _
    rw [hpool]; exact h.q.max
  · show _ ≤ (setLast s.pool x).max
    rw [hpool]; exact h.q.max24
  · show ∀ q ∈ nodes (setLast s.pool x), InBlk (setLast s.pool x).blocks q
    rw [hpool]
    intro q hq
    have hq' : q ∈ nodes s.pool := hq
    rcases hc2.loc q (List.mem_append_right _ (List.mem_append_right _ hq')) with hb | hl
    · exact hb
    · exfalso
      obtain ⟨c, hcm, h1, h2⟩ := h.q.nin q hq'
      have hd := hc.block_large hcm hl
      have hin := hc.inside hcm h1 h2
      have := hc.pos q (List.mem_append_right _ hq')
      unfold Disj at hd; unfold Inside at hin
      omega
  · show (setLast s.pool x).cleanup = _
    rw [hpool]; exact h.clean

theorem apply_user_keep {S ext s s' o rr} (h : Inv S ext s) (e : apply s o = some (s', rr)) {r : Region} (hr : r ∈ s.user) (h1 : o ≠ .reset)
    (h2 : o ≠ .pfree r.addr) : r ∈ s'.user := by
  have hg : ∀ n t, (give s n t).1 = s' → r ∈ s'.user := by
    intro n t ht
    obtain ⟨p, sys, m⟩ := t
    subst ht
    cases m with
    | none => exact hr
    | some m => exact List.mem_cons_of_mem _ hr
  have hgc : ∀ hd d t, (giveClean s hd d t).1 = s' → r ∈ s'.user := by
    intro hd d t ht
    obtain ⟨p, sys, m⟩ := t
    subst ht
    cases m <;> exact hr
  cases o with
  | palloc n o1 o2 =>
    obtain ⟨t, _, ht⟩ := Option.map_eq_some_iff.1 e
    exact hg n t (by rw [ht])
  | pnalloc n o1 o2 =>
    obtain ⟨t, _, ht⟩ := Option.map_eq_some_iff.1 e
    exact hg n t (by rw [ht])
  | pmemalign n al o1 o2 =>
    obtain ⟨t, _, ht⟩ := Option.map_eq_some_iff.1 e
    exact hg n t (by rw [ht])
  | pfree a =>
    obtain ⟨⟨p, sys, f⟩, _, ht⟩ := Option.map_eq_some_iff.1 e
    cases ht
    cases f with
    | false => exact hr
    | true =>
      refine List.mem_filter.2 ⟨hr, ?_⟩
      rw [decide_eq_true_iff]
      intro h
      exact h2 (by rw [h])
  | cleanupAdd hd d o1 o2 =>
    obtain ⟨t, _, ht⟩ := Option.map_eq_some_iff.1 e
    exact hgc hd d t (by rw [ht])
  | cleanupInsert hd o1 o2 =>
    simp only [apply] at e
    split at e
    · obtain ⟨t, _, ht⟩ := Option.map_eq_some_iff.1 e
      cases ht; exact hr
    · obtain ⟨t, _, ht⟩ := Option.map_eq_some_iff.1 e
      exact hgc hd 0 t (by rw [ht])
  | setData node d => cases e; exact hr
  | reset => exact absurd rfl h1

/-- What growing guarantees. -/
theorem grow_spec {S ext s m a vs} (h : AInv S ext s m a vs) {k newAlloc copyLen : Nat} {o1 o2 : Option Nat} (hk : 1 ≤ k) (hna : 1 ≤ newAlloc)
    (hn : a.nelts + k ≤ newAlloc) (hfr : FreshFor s (newAlloc * a.size) o1 o2) :
    arrayGrow s a k newAlloc copyLen o1 o2 ≠ none ∧
    ∀ s' a' c, arrayGrow s a k newAlloc copyLen o1 o2 = some (some (s', a', c)) →
      Inv S ext s' ∧ a'.region ∈ s'.user ∧ a'.size = a.size ∧ a'.nelts = a.nelts ∧ a.nelts + k ≤ a'.nalloc ∧ a'.self = a.self ∧
      (c = none → a'.elts = a.elts ∧ Inside a.region a'.region) ∧
      (∀ d, c = some d → d = ⟨a'.elts, a.elts, copyLen⟩ ∧ a.region ∈ s'.user ∧ Disj a'.region a.region ∧ a.region ≠ a'.region) := by
  have hle := h.le
  unfold arrayGrow
  have hmono : a.size * a.nalloc ≤ a.size * (a.nalloc + k) := Nat.mul_le_mul_left _ (by omega)
  have hpos : 0 < a.size * (a.nalloc + k) := Nat.mul_pos h.esz (by omega)
  by_cases hc : a.elts + a.size * a.nalloc = headLast s.pool ∧ headLast s.pool + k * a.size ≤ headEnd s.pool
  · rw [if_pos hc]
    refine ⟨by simp, fun s' a' c e => ?_⟩
    cases e
    have heq : a.size * (a.nalloc + k) = a.size * a.nalloc + k * a.size := by rw [Nat.mul_add, Nat.mul_comm k]
    have hi := moveHead_inv h.inv h.reg (by exact hc.1) (x := headLast s.pool + k * a.size)
      (by show a.elts ≤ _; omega) hc.2 [⟨a.elts, a.size * (a.nalloc + k)⟩] (Or.inr ⟨_, rfl, hpos, by show a.elts + _ = _; omega⟩)
    refine ⟨hi, List.mem_cons_self, rfl, rfl, by show _ ≤ a.nalloc + k; omega, rfl, fun _ => ⟨rfl, Nat.le_refl _, ?_⟩, fun d h => (by cases h)⟩
    show a.elts + a.size * a.nalloc ≤ a.elts + a.size * (a.nalloc + k)
    omega
  · rw [if_neg hc]
    have hpos' : 0 < newAlloc * a.size := Nat.mul_pos hna h.esz
    obtain ⟨p', sys', r, e1, g, _⟩ := palloc_gives h.inv.q hpos' true hfr
    rw [e1]
    cases r with
    | none => exact ⟨by simp, fun s' a' c e => (by cases e)⟩
    | some x =>
      refine ⟨by simp, fun s' a' c e => ?_⟩
      cases e
      have hi : Inv S ext { s with pool := p', sys := sys', user := ⟨x, newAlloc * a.size⟩ :: s.user } :=
        ⟨g.ok x rfl, g.clean.trans h.inv.clean⟩
      have hreg : (⟨x, newAlloc * a.size⟩ : Region) = Arr.region { a with elts := x, nalloc := newAlloc } := by
        unfold Arr.region; simp only [Nat.mul_comm]
      have hd := (List.pairwise_cons.1 hi.safe.1).1 _ h.reg
      refine ⟨hi, ?_, rfl, rfl, hn, rfl, fun h => (by cases h), ?_⟩
      · rw [← hreg]; exact List.mem_cons_self
      · intro d hd'
        cases hd'
        refine ⟨rfl, List.mem_cons_of_mem _ h.reg, by rw [← hreg]; exact hd, ?_⟩
        rw [← hreg]
        intro heq
        rw [heq] at hd
        unfold Disj at hd
        dsimp only at hd
        omega

theorem not_grow {S ext s m a vs} (h : AInv S ext s m a vs) : Inside a.region a.region := ⟨Nat.le_refl _, Nat.le_refl _⟩

/-- a push of `bs` (the bytes of `k` elements) after an optional growth -/
theorem push_content {S ext s m a vs} (h : AInv S ext s m a vs) {s' : St} {a1 : Arr} {c : Option Copy} {m1 m2 : Mem} {copyLen : Nat} (hcl : a.size * a.nelts ≤ copyLen)
    (hg : Inv S ext s' ∧ a1.region ∈ s'.user ∧ a1.size = a.size ∧ a1.nelts = a.nelts ∧
      (c = none → a1.elts = a.elts ∧ Inside a.region a1.region) ∧
      (∀ d, c = some d → d = ⟨a1.elts, a.elts, copyLen⟩ ∧ a.region ∈ s'.user))
    (hw : PoolWrites s.pool s'.pool m m1) (hm : memcpy m1 c = some m2) (ws : List (List Nat)) (hws : ∀ v ∈ ws, v.length = a.size)
    (hle : a.nelts + ws.length ≤ a1.nalloc) (hna : 1 ≤ a1.nalloc) :
    AInv S ext s' (storeAt m2 (a1.elts + a1.size * a1.nelts) ws.flatten) { a1 with nelts := a1.nelts + ws.length } (vs ++ ws) := by
  obtain ⟨hi, hreg, hsz, hne, hnone, hsome⟩ := hg
  have hfl : ws.flatten.length = a.size * ws.length := by
    clear hle hm hw
    induction ws with
    | nil => simp
    | cons v ws ih =>
      rw [List.flatten_cons, List.length_append, ih (fun v hv => hws v (by simp [hv])), hws v (by simp), List.length_cons, Nat.mul_succ, Nat.add_comm]
  have hold : a.size * a.nelts ≤ a.size * a.nalloc := Nat.mul_le_mul_left _ h.le
  -- the old content is found at the new place
  have hcont : readAt m2 a1.elts (a.size * a.nelts) = vs.flatten := by
    rw [← h.content]
    cases c with
    | none =>
      cases hm
      obtain ⟨he, hin⟩ := hnone rfl
      rw [he]
      refine readAt_congr fun x h1 h2 => ?_
      refine poolWrites_keep h.inv hi hw h.reg hreg hin x ?_
      unfold Region.mem Arr.region; dsimp only; omega
    | some d =>
      obtain ⟨rfl, hr⟩ := hsome d rfl
      rw [readAt_memcpy hm (by exact hcl)]
      refine readAt_congr fun x h1 h2 => ?_
      refine poolWrites_keep h.inv hi hw h.reg hr ⟨Nat.le_refl _, Nat.le_refl _⟩ x ?_
      unfold Region.mem Arr.region; dsimp only at h1 h2 ⊢; omega
  refine ⟨hi, by show 1 ≤ a1.size; rw [hsz]; exact h.esz, hna, by show a1.nelts + _ ≤ a1.nalloc; omega, ?_, ?_, hreg, ?_⟩
  · show a1.nelts + ws.length = (vs ++ ws).length
    rw [List.length_append, hne, h.cnt]
  · intro v hv
    show v.length = a1.size
    rw [hsz]
    rcases List.mem_append.1 hv with hv | hv
    · exact h.len v hv
    · exact hws v hv
  · show readAt _ a1.elts (a1.size * (a1.nelts + ws.length)) = _
    rw [hsz, hne, Nat.mul_add, readAt_add, List.flatten_append]
    congr 1
    · rw [← hcont]
      refine readAt_congr fun x h1 h2 => ?_
      unfold storeAt
      rw [if_neg (by omega)]
    · rw [← hfl]
      exact readAt_store _ _ _

theorem AInv.grow_or_not {S ext s m a vs} (h : AInv S ext s m a vs) {k newAlloc copyLen : Nat} {o1 o2 : Option Nat} {cond : Prop} [Decidable cond]
    (hcond : ¬ cond → a.nelts + k ≤ a.nalloc) (hk : cond → 1 ≤ k) (hna : cond → 1 ≤ newAlloc ∧ a.nelts + k ≤ newAlloc)
    (hfr : FreshFor s (newAlloc * a.size) o1 o2) {s' a1 c}
    (e : (if cond then arrayGrow s a k newAlloc copyLen o1 o2 else some (some (s, a, none))) = some (some (s', a1, c))) :
    (Inv S ext s' ∧ a1.region ∈ s'.user ∧ a1.size = a.size ∧ a1.nelts = a.nelts ∧
      (c = none → a1.elts = a.elts ∧ Inside a.region a1.region) ∧
      (∀ d, c = some d → d = ⟨a1.elts, a.elts, copyLen⟩ ∧ a.region ∈ s'.user)) ∧ a.nelts + k ≤ a1.nalloc ∧ 1 ≤ a1.nalloc := by
  split at e
  · rename_i hc
    obtain ⟨h1, h2, h3, h4, h5, _, h7, h8⟩ := (grow_spec h (hk hc) (hna hc).1 (hna hc).2 hfr).2 s' a1 c e
    have := hk hc
    exact ⟨⟨h1, h2, h3, h4, h7, fun d hd => ⟨(h8 d hd).1, (h8 d hd).2.1⟩⟩, h5, by omega⟩
  · rename_i hc
    cases e
    exact ⟨⟨h.inv, h.reg, rfl, rfl, fun _ => ⟨rfl, Nat.le_refl _, Nat.le_refl _⟩, fun d hd => (by cases hd)⟩, hcond hc, h.nz⟩

theorem create_ainv {S ext s s' m' arr n sz o1 o2 o3 o4} (h : Inv S ext s) (hn : 1 ≤ n) (hsz : 1 ≤ sz) (hf : FreshFor s 40 o1 o2)
    (hf2 : ∀ p sys r, palloc s.pool s.sys 40 true o1 o2 = some (p, sys, r) → FreshFor { s with pool := p, sys := sys } (n * sz) o3 o4)
    (e : arrayCreate s n sz o1 o2 o3 o4 = some (some (s', arr))) : AInv S ext s' m' arr [] ∧ (⟨arr.self, 40⟩ : Region) ∈ s'.user := by
  unfold arrayCreate at e
  obtain ⟨p1, sys1, r1, e1, g1, _⟩ := palloc_gives h.q (by omega : 0 < 40) true hf
  rw [e1] at e
  cases r1 with
  | none => cases e
  | some self =>
    have q1 := g1.ok self rfl
    have hpos : 0 < n * sz := Nat.mul_pos hn hsz
    obtain ⟨p2, sys2, r2, e2, g2, _⟩ := palloc_gives q1 hpos true (hf2 _ _ _ e1)
    simp only at e
    rw [e2] at e
    cases r2 with
    | none => cases e
    | some elts =>
      cases e
      refine ⟨⟨⟨g2.ok elts rfl, (g2.clean.trans g1.clean).trans h.clean⟩, hsz, hn, Nat.zero_le _, rfl, by simp, ?_, rfl⟩, by simp⟩
      simp [Arr.region, Nat.mul_comm]

theorem ahist_inv {size a0 ext s m arr vs} (hg : GoodCreate size a0 ext) (h : AHist size a0 ext s m arr vs) : AInv size ext s m arr vs := by
  induction h with
  | create hh hn hsz hf hf2 e _ => exact (create_ainv (hist_inv hg hh) hn hsz hf hf2 e).1
  | @other s s' m m' arr vs o r _ ha h1 h2 e hw ih =>
    obtain ⟨s1, r1, e1, hi⟩ := apply_inv ih.inv _ ha
    rw [e] at e1
    cases e1
    have hreg := apply_user_keep ih.inv e ih.reg h1 h2
    refine ⟨hi, ih.esz, ih.nz, ih.le, ih.cnt, ih.len, hreg, ?_⟩
    rw [← ih.content]
    refine readAt_congr fun x hx1 hx2 => ?_
    refine poolWrites_keep ih.inv hi hw ih.reg hreg ⟨Nat.le_refl _, Nat.le_refl _⟩ x ⟨hx1, ?_⟩
    have := Nat.mul_le_mul_left arr.size ih.le
    unfold Arr.region; dsimp only; omega
  | @write s m arr vs r x v _ hr hne _ hx ih =>
    refine ⟨ih.inv, ih.esz, ih.nz, ih.le, ih.cnt, ih.len, ih.reg, ?_⟩
    rw [← ih.content]
    refine readAt_congr fun y hy1 hy2 => ?_
    unfold storeAt
    rw [if_neg]
    intro hxy
    have hyx : y = x := by simp at hxy; omega
    subst hyx
    have hd : Disj r arr.region := by
      obtain ⟨l1, l2, hl⟩ := List.append_of_mem hr
      have hu := ih.inv.safe.1
      have hreg := ih.reg
      rw [hl] at hu hreg
      have hu2 := (List.pairwise_cons.1 (pairwise_perm List.perm_middle hu)).1
      refine hu2 _ ?_
      rcases List.mem_append.1 hreg with h' | h'
      · simp [h']
      · rcases List.mem_cons.1 h' with h' | h'
        · exact absurd h'.symm hne
        · simp [h']
    have := Nat.mul_le_mul_left arr.size ih.le
    unfold Disj Arr.region at hd
    unfold Region.mem at hx
    dsimp only at hd
    omega
  | @push s s' m m1 m2 arr arr' vs v o1 o2 c slot _ hv hf e hw hm ih =>
    unfold arrayPush at e
    rw [Option.map_eq_some_iff] at e
    obtain ⟨r, er, e⟩ := e
    rw [Option.map_eq_some_iff] at e
    obtain ⟨⟨s1, a1, c1⟩, rfl, e⟩ := e
    cases e
    have hle := ih.le
    have hnz := ih.nz
    obtain ⟨hgr, hl, hna⟩ := ih.grow_or_not (cond := arr.nelts = arr.nalloc) (k := 1) (by omega) (fun _ => by omega)
      (fun hc => by omega) hf er
    have := push_content ih (by exact Nat.mul_le_mul_left _ ih.le) hgr hw hm [v] (by simpa using hv) hl hna
    simpa using this
  | @pushN s s' m m1 m2 arr arr' vs ws o1 o2 c slot _ hv hf e hw hm ih =>
    unfold arrayPushN at e
    rw [Option.map_eq_some_iff] at e
    obtain ⟨r, er, e⟩ := e
    rw [Option.map_eq_some_iff] at e
    obtain ⟨⟨s1, a1, c1⟩, rfl, e⟩ := e
    cases e
    have hle := ih.le
    have hnz := ih.nz
    obtain ⟨hgr, hl, hna⟩ := ih.grow_or_not (cond := arr.nelts + ws.length > arr.nalloc) (k := ws.length) (by omega) (fun _ => by omega)
      (fun hc => by split <;> omega) hf er
    exact push_content ih (by rw [Nat.mul_comm]; exact Nat.le_refl _) hgr hw hm ws hv hl hna

theorem readAt_flatten (m : Mem) (sz : Nat) : ∀ (vs : List (List Nat)) (a : Nat), (∀ v ∈ vs, v.length = sz) →
    readAt m a (sz * vs.length) = vs.flatten → ∀ i (h : i < vs.length), readAt m (a + sz * i) sz = vs[i]
  | [], _, _, _, i, h => by simp at h
  | v :: vs, a, hl, he, i, h => by
    rw [List.length_cons, Nat.mul_succ, Nat.add_comm, readAt_add, List.flatten_cons] at he
    have hv := hl v (by simp)
    have h2 := List.append_inj he (by rw [readAt_length, hv])
    cases i with
    | zero => simpa using h2.1
    | succ i =>
      have := readAt_flatten m sz vs (a + sz) (fun w hw => hl w (by simp [hw])) h2.2 i (by simpa using h)
      simp only [List.getElem_cons_succ]
      rw [← this, Nat.mul_succ]
      congr 1
      omega

/-- **C14.** In every history of an array (created with capacity and element size at least 1) and of everything else that
uses the pool, element `i` is the `i`-th pushed element, `nelts` is the number of pushes and at most `nalloc`. -/
theorem array_keeps_elements {size a0 : Nat} {ext : List Region} {s : St} {m : Mem} {arr : Arr} {vs : List (List Nat)}
    (hg : GoodCreate size a0 ext) (h : AHist size a0 ext s m arr vs) :
    arr.nelts = vs.length ∧ arr.nelts ≤ arr.nalloc ∧ ∀ i (hi : i < vs.length), readAt m (arr.elts + arr.size * i) arr.size = vs[i] := by
  have hi := ahist_inv hg h
  refine ⟨hi.cnt, hi.le, ?_⟩
  exact readAt_flatten m arr.size vs arr.elts hi.len (by rw [← hi.cnt]; exact hi.content)

/-- **C14, C12.** All slots of the array lie in one block of the client, and the client's blocks stay apart also when arrays
grow in place. -/
theorem array_memory_safe {size a0 : Nat} {ext : List Region} {s : St} {m : Mem} {arr : Arr} {vs : List (List Nat)}
    (hg : GoodCreate size a0 ext) (h : AHist size a0 ext s m arr vs) :
    (⟨arr.elts, arr.size * arr.nalloc⟩ : Region) ∈ s.user ∧ s.user.Pairwise Disj ∧
    (∀ r ∈ s.user, ∃ q ∈ owned s.pool, q ∈ s.sys ∧ Inside r q) ∧ (∀ r ∈ s.user, ∀ k ∈ records s.pool, Disj r k) := by
  have hi := ahist_inv hg h
  exact ⟨hi.reg, hi.inv.safe.1, hi.inv.safe.2.1, hi.inv.safe.2.2.1⟩

/-- **C14.** A push never runs into undefined behaviour: the slot is inside the array, and the copy does not overlap. -/
theorem array_push_safe {size a0 : Nat} {ext : List Region} {s : St} {m : Mem} {arr : Arr} {vs : List (List Nat)}
    (hg : GoodCreate size a0 ext) (h : AHist size a0 ext s m arr vs) {o1 o2 : Option Nat}
    (hf : FreshFor s (2 * arr.nalloc * arr.size) o1 o2) :
    arrayPush s arr o1 o2 ≠ none ∧ ∀ s' arr' c slot, arrayPush s arr o1 o2 = some (some (s', arr', c, slot)) →
      (∀ m, memcpy m c ≠ none) ∧ arr'.elts ≤ slot ∧ slot + arr'.size ≤ arr'.elts + arr'.size * arr'.nalloc := by
  have hi := ahist_inv hg h
  have hle := hi.le
  have hnz := hi.nz
  have hcore := grow_spec hi (k := 1) (newAlloc := 2 * arr.nalloc) (copyLen := arr.size * arr.nalloc) (Nat.le_refl _) (by omega) (by omega) hf
  unfold arrayPush
  refine ⟨?_, fun s' arr' c slot e => ?_⟩
  · split
    · intro hn
      rw [Option.map_eq_none_iff] at hn
      exact hcore.1 hn
    · simp
  · rw [Option.map_eq_some_iff] at e
    obtain ⟨r, er, e⟩ := e
    rw [Option.map_eq_some_iff] at e
    obtain ⟨⟨s1, a1, c1⟩, rfl, e⟩ := e
    cases e
    obtain ⟨hgr, hl, _⟩ := hi.grow_or_not (cond := arr.nelts = arr.nalloc) (k := 1) (by omega) (fun _ => by omega)
      (fun hc => by omega) hf er
    refine ⟨?_, Nat.le_add_right _ _, ?_⟩
    · intro m
      split at er
      · obtain ⟨_, _, _, _, h5, _, _, h8⟩ := hcore.2 _ _ _ er
        cases c with
        | none => simp [memcpy]
        | some d =>
          obtain ⟨rfl, _, hd, _⟩ := h8 d rfl
          unfold Disj Arr.region at hd
          dsimp only at hd
          simp only [memcpy]
          have := Nat.mul_le_mul_left a1.size (show arr.nalloc ≤ a1.nalloc by omega)
          rw [hgr.2.2.1] at this hd
          rw [if_pos (by omega)]
          simp
      · cases er; simp [memcpy]
    · show a1.elts + a1.size * a1.nelts + a1.size ≤ a1.elts + a1.size * a1.nalloc
      rw [hgr.2.2.2.1, Nat.add_assoc, ← Nat.mul_succ]
      exact Nat.add_le_add_left (Nat.mul_le_mul_left _ hl) _

/-- **C14.** Destroying an array keeps every other block of the client valid and disjoint. -/
theorem array_destroy_safe {S : Nat} {ext : List Region} {s : St} {arr : Arr} (hi : Inv S ext s) (hsz : 1 ≤ arr.size) (hnz : 1 ≤ arr.nalloc)
    (h1 : arr.region ∈ s.user) (h2 : (⟨arr.self, 40⟩ : Region) ∈ s.user.erase arr.region) : Inv S ext (arrayDestroy s arr) := by
  have giveUp : ∀ {s : St} {r : Region}, Inv S ext s → Inv S ext { s with user := s.user.erase r } := by
    intro s r h
    exact ⟨⟨h.q.core.sub_R (List.Sublist.append_right (List.erase_sublist) _), h.q.cur, h.q.max, h.q.max24, h.q.nin⟩, h.clean⟩
  have hend : ∀ {s : St}, Inv S ext s → headLast s.pool ≤ headEnd s.pool := by
    intro s h
    obtain ⟨b, t, hbt, h64⟩ := h.q.core.hd
    have hb := h.q.core.blk b (by rw [hbt]; simp)
    have hhl : headLast s.pool = b.last := by simp [headLast, hbt]
    have hhe : headEnd s.pool = b.base + S := by simp [headEnd, hbt, hb.1]
    omega
  have step1 : Inv S ext { s with pool := (if arr.elts + arr.size * arr.nalloc = headLast s.pool then setLast s.pool (headLast s.pool - arr.size * arr.nalloc) else s.pool), user := s.user.erase arr.region } := by
    split
    · rename_i hc
      have := hend hi
      exact moveHead_inv hi h1 hc (by show arr.elts ≤ _; omega) (by omega) [] (Or.inl rfl)
    · exact giveUp hi
  unfold arrayDestroy
  dsimp only
  generalize (if arr.elts + arr.size * arr.nalloc = headLast s.pool then setLast s.pool (headLast s.pool - arr.size * arr.nalloc) else s.pool) = p1 at step1 ⊢
  split
  · rename_i hc
    have := hend step1
    exact moveHead_inv step1 (r := ⟨arr.self, 40⟩) h2 hc (Nat.le_refl _) (by show arr.self ≤ headEnd p1; have h3 : headLast p1 ≤ headEnd p1 := this; omega) [] (Or.inl rfl)
  · exact giveUp step1

/-- **Finding (C14).** An array created with capacity 0 never gets any: after another block was taken, a push returns a slot in
an allocation of 0 bytes that is the next block's memory. -/
theorem array_zero_capacity_overflows :
    ∃ s1 a1 s2 a2 s3, arrayCreate { pool := create 512 1024, sys := [⟨1024, 512⟩] } 0 8 none none none none = some (some (s1, a1)) ∧
      apply s1 (.palloc 8 none none) = some (s2, some 1128) ∧
      arrayPush s2 a1 none none = some (some (s3, a2, some ⟨1136, 1128, 0⟩, 1136)) ∧ a2.nelts = 1 ∧ a2.nalloc = 0 ∧
      ∃ s4, apply s3 (.palloc 8 none none) = some (s4, some 1136) := by
  refine ⟨_, _, _, _, _, rfl, rfl, rfl, rfl, rfl, _, rfl⟩

theorem fresh_none (s : St) {n : Nat} (h : n ≤ s.pool.max) (o2 : Option Nat) : FreshFor s n none o2 := by
  unfold FreshFor
  rw [if_pos h]
  intro a e
  cases e

theorem poolWrites_refl (p p' : Pool) (m : Mem) : PoolWrites p p' m m := fun _ h => absurd rfl h

def pA (last : Nat) : Pool := { blocks := [⟨1024, 512, 64, last, 0⟩], max := 448 }
def sA (last : Nat) (u : List Region) : St := { pool := pA last, sys := [⟨1024, 512⟩], user := u }

/-- The hypotheses are met: two pushes, the second after another block was taken, so that the array moves. -/
example : ∃ s m arr, AHist 512 1024 [] s m arr [[1, 2], [3, 4]] ∧ arr.elts = 1144 ∧ arr.nalloc = 2 := by
  have h0 : AHist 512 1024 [] (sA 1130 [⟨1128, 2⟩, ⟨1088, 40⟩]) (fun _ => 0) ⟨1088, 1128, 0, 2, 1⟩ [] := by
    refine .create (s := sA 1088 []) (m := fun _ => 0) (n := 1) (sz := 2) (o1 := none) (o2 := none) (o3 := none) (o4 := none) .init
      (by decide) (by decide) (fresh_none _ (by decide) _) ?_ (by decide) (poolWrites_refl _ _ _)
    intro p sys r e
    have e2 : palloc (sA 1088 []).pool (sA 1088 []).sys 40 true none none = some (pA 1128, [⟨1024, 512⟩], some 1088) := by decide
    rw [e2] at e
    cases e
    exact fresh_none _ (by decide) _
  have h1 := AHist.push (v := [1, 2]) (o1 := none) (o2 := none) (s' := sA 1130 [⟨1128, 2⟩, ⟨1088, 40⟩]) (arr' := ⟨1088, 1128, 1, 2, 1⟩) (c := none)
    (slot := 1128) h0 rfl (fresh_none _ (by decide) _) (by decide) (poolWrites_refl _ _ _) rfl
  have h2 := AHist.other (o := .palloc 8 none none) (s' := sA 1144 [⟨1136, 8⟩, ⟨1128, 2⟩, ⟨1088, 40⟩]) (r := some 1136) h1
    ⟨by decide, fresh_none _ (by decide) _⟩ (fun h => (by cases h)) (fun h => (by cases h)) (by decide) (poolWrites_refl _ _ _)
  have h3 := AHist.push (v := [3, 4]) (o1 := none) (o2 := none) (s' := sA 1148 [⟨1144, 4⟩, ⟨1136, 8⟩, ⟨1128, 2⟩, ⟨1088, 40⟩])
    (arr' := ⟨1088, 1144, 2, 2, 2⟩) (c := some ⟨1144, 1128, 2⟩) (slot := 1146) h2 rfl (fresh_none _ (by decide) _) (by decide)
    (poolWrites_refl _ _ _) rfl
  exact ⟨_, _, _, h3, rfl, rfl⟩

end Kasync.Pool
