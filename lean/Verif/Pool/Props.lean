import Verif.Pool.Lemmas

/-! # Property theorems for the pool: C12, C13 -/

namespace Kasync.Pool

structure Inv (S : Nat) (ext : List Region) (s : St) : Prop where
  q : QInv S ext s.pool s.sys s.user
  clean : s.pool.cleanup = s.regs.reverse

theorem create_inv {size a ext} (h : GoodCreate size a ext) : Inv size ext { pool := create size a, sys := ⟨a, size⟩ :: ext } := by
  have hb := h.big
  have hbd := h.bounded
  have hw : wsub size 64 = size - 64 := by unfold wsub; omega
  refine ⟨⟨⟨h.big, h.mult, ⟨_, _, rfl, rfl⟩, ?_, List.Perm.refl _, ?_, ?_, ?_, ?_, ?_⟩, Nat.zero_lt_one, ?_, ?_, ?_⟩, rfl⟩
  · intro b hb
    simp only [create, List.mem_singleton] at hb
    subst hb
    refine ⟨rfl, h.aligned, hbd, ?_, ?_, ?_, ?_⟩ <;> dsimp only <;> omega
  · rw [List.pairwise_cons]; exact ⟨h.apart, h.others⟩
  · intro r hr
    rcases List.mem_cons.1 hr with rfl | hr
    · show 0 < size; omega
    · exact h.pos r hr
  · exact List.Pairwise.nil
  · intro r hr; cases hr
  · intro r hr; cases hr
  · simp only [create, hw, maxFromPool]; split <;> omega
  · simp only [create, hw, maxFromPool]; split <;> omega
  · intro r hr; cases hr

theorem give_inv {S ext s n p' sys' r} (h : Inv S ext s) (g : Gives S ext s.pool s.user n p' sys' r) : Inv S ext (give s n (p', sys', r)).1 := by
  cases r with
  | none => exact ⟨g.fail rfl, g.clean.trans h.clean⟩
  | some m => exact ⟨g.ok m rfl, g.clean.trans h.clean⟩

theorem addClean_inv {S ext s} {hd : Option Nat} {d : Nat} {o1 o2 : Option Nat} (h : Inv S ext s) (hf : FreshFor s 24 o1 o2) :
    ∃ p' sys' r, cleanupAdd s.pool s.sys hd d o1 o2 = some (p', sys', r) ∧ Inv S ext (giveClean s hd d (p', sys', r)).1 := by
  obtain ⟨p', sys', r, e, g, ga⟩ := palloc_gives h.q (by omega : 0 < 24) true hf
  have hm := h.q.max24
  cases r with
  | none =>
    exact ⟨p', sys', none, by simp [cleanupAdd, e], g.fail rfl, g.clean.trans h.clean⟩
  | some c =>
    have q := g.ok c rfl
    refine ⟨{ p' with cleanup := ⟨c, hd, d⟩ :: p'.cleanup }, sys', some c, by simp [cleanupAdd, e], ⟨?_, q.cur, q.max, q.max24, ?_⟩, ?_⟩
    · refine q.core.perm_R ?_
      show (⟨c, 24⟩ :: (s.user ++ nodes p')).Perm (s.user ++ (p'.large.map _ ++ _ :: p'.cleanup.map _))
      refine List.Perm.trans ?_ (List.Perm.append_left _ List.perm_middle.symm)
      exact List.perm_middle.symm
    · intro r hr
      have : r = ⟨c, 24⟩ ∨ r ∈ nodes p' := by
        change r ∈ p'.large.map _ ++ _ :: p'.cleanup.map _ at hr
        rcases List.mem_append.1 hr with h' | h'
        · exact Or.inr (List.mem_append_left _ h')
        · rcases List.mem_cons.1 h' with h' | h'
          · exact Or.inl h'
          · exact Or.inr (List.mem_append_right _ h')
      rcases this with h' | h'
      · rw [h']; exact (ga c rfl).2 hm
      · exact q.nin r h'
    · show _ :: p'.cleanup = (s.regs ++ [_]).reverse
      rw [List.reverse_append, g.clean, h.clean]; rfl

theorem nodes_setData (p : Pool) (node d : Nat) : nodes (setData p node d) = nodes p := by
  simp only [nodes, setData, List.map_map]
  congr 1
  apply List.map_congr_left
  intro c _
  simp only [Function.comp]
  split <;> rfl

theorem find_iff {p : Pool} {regs : List Clean} (hc : p.cleanup = regs.reverse) (h : Option Nat) :
    regs.any (fun c => c.handler = h) = (p.cleanup.find? (fun c => c.handler = h)).isSome := by
  rw [hc, Bool.eq_iff_iff, List.find?_isSome, List.any_eq_true]
  simp

theorem apply_inv {S ext s} (h : Inv S ext s) (o : Op) (ha : Allowed s o) : ∃ s' r, apply s o = some (s', r) ∧ Inv S ext s' := by
  cases o with
  | palloc n o1 o2 =>
    obtain ⟨p', sys', r, e, g, _⟩ := palloc_gives h.q ha.1 true ha.2
    exact ⟨(give s n (p', sys', r)).1, (give s n (p', sys', r)).2, by simp only [apply, e, Option.map_some], give_inv h g⟩
  | pnalloc n o1 o2 =>
    obtain ⟨p', sys', r, e, g, _⟩ := palloc_gives h.q ha.1 false ha.2
    exact ⟨(give s n (p', sys', r)).1, (give s n (p', sys', r)).2, by simp only [apply, e, Option.map_some], give_inv h g⟩
  | pmemalign n al o1 o2 =>
    cases o1 with
    | none => exact ⟨_, _, rfl, h⟩
    | some a =>
      have hf := ha.2.2 a rfl
      rw [h.q.psize] at hf
      obtain ⟨p', sys', m, e, g, _⟩ := addLarge_gives h.q (r := ⟨a, n⟩) ha.1 (ha.2.1 a rfl).2.2 hf
      exact ⟨(give s n (p', sys', m)).1, (give s n (p', sys', m)).2, by simp only [apply, pmemalign, e, Option.map_some], give_inv h g⟩
  | pfree a =>
    simp only [apply, pfree]
    cases hc : clearLarge a s.pool.large with
    | none =>
      exact ⟨_, _, rfl, h⟩
    | some ls =>
      obtain ⟨r, rfl, hp, hn⟩ := clearLarge_spec _ _ hc
      have hcore := h.q.core.perm_L hp
      obtain ⟨s1, e1, hs1⟩ := sysFree_spec hcore.sysd hcore.sysp (r := r) (hcore.mem_sys.2 (Or.inr (Or.inl (by simp))))
      simp only [e1, Option.map_some, if_true]
      refine ⟨_, _, rfl, ⟨?_, h.q.cur, h.q.max, h.q.max24, ?_⟩, h.clean⟩
      · have hnodes : nodes { s.pool with large := ls } = nodes s.pool := by
          have := congrArg (List.map (fun n => (⟨n, 16⟩ : Region))) hn
          simp only [List.map_map] at this
          simp only [nodes]
          congr 1
        rw [hnodes]
        refine hcore.remL hs1 (List.Sublist.append_right (List.filter_sublist) _) ?_
        intro q hq
        rcases List.mem_append.1 hq with h' | h'
        · rintro rfl
          have := (List.mem_filter.1 h').2
          simp at this
        · rintro rfl
          obtain ⟨b, hb, h1, h2⟩ := h.q.nin _ h'
          have hd := hcore.block_large hb (List.mem_cons_self (a := q))
          have hin := hcore.inside hb h1 h2
          have hpos := hcore.sysp q (hcore.mem_sys.2 (Or.inr (Or.inl (by simp))))
          unfold Disj at hd; unfold Inside at hin
          omega
      · intro q hq
        refine h.q.nin q ?_
        have hnodes : nodes { s.pool with large := ls } = nodes s.pool := by
          have := congrArg (List.map (fun n => (⟨n, 16⟩ : Region))) hn
          simp only [List.map_map] at this
          simp only [nodes]
          congr 1
        rwa [hnodes] at hq
  | cleanupAdd hd d o1 o2 =>
    obtain ⟨p', sys', r, e, hi⟩ := addClean_inv (hd := hd) (d := d) h ha
    exact ⟨(giveClean s hd d (p', sys', r)).1, (giveClean s hd d (p', sys', r)).2, by simp only [apply, e, Option.map_some], hi⟩
  | cleanupInsert hd o1 o2 =>
    simp only [apply, cleanupInsert, find_iff h.clean]
    cases hf : s.pool.cleanup.find? (fun c => c.handler = hd) with
    | some c =>
      exact ⟨_, _, rfl, h⟩
    | none =>
      obtain ⟨p', sys', r, e, hi⟩ := addClean_inv (hd := hd) (d := 0) h ha
      exact ⟨(giveClean s hd 0 (p', sys', r)).1, (giveClean s hd 0 (p', sys', r)).2, by simp [e], hi⟩
  | setData node d =>
    refine ⟨_, _, rfl, ⟨?_, h.q.cur, h.q.max, h.q.max24, ?_⟩, ?_⟩
    · rw [nodes_setData]; exact h.q.core
    · rw [nodes_setData]; exact h.q.nin
    · show List.map _ s.pool.cleanup = (List.map _ s.regs).reverse
      rw [h.clean, List.map_reverse]
  | reset =>
    have hc := h.q.core
    have hbig := hc.big
    have hp : s.sys.Perm (s.pool.large.filterMap Large.alloc ++ (s.pool.blocks.map Block.region ++ ext)) := by
      refine hc.perm.trans ?_
      rw [← List.append_assoc]
      exact List.Perm.append_right _ List.perm_append_comm
    obtain ⟨s1, e1, hs1⟩ := freeAll_spec _ _ _ hc.sysd hc.sysp hp
    rw [← largeAddrs_eq] at e1
    have hd1 := (List.pairwise_append.1 (pairwise_perm hp hc.sysd)).2.1
    refine ⟨({ s with pool := { s.pool with blocks := s.pool.blocks.map (fun b => { b with last := b.base + 64, failed := 0 }), current := 0, large := [], cleanup := [] }, sys := s1, user := [], regs := [], events := s.events ++ (runCleanups s.pool.cleanup ++ (largeAddrs s.pool.large).map .free) } : St), none, by simp only [apply, reset, e1, Option.map_some], ⟨⟨hc.big, hc.mult, ?_, ?_, ?_, ?_, ?_, ?_, ?_, ?_⟩, ?_, h.q.max, h.q.max24, ?_⟩, rfl⟩
    · obtain ⟨b, t, hb, h64⟩ := hc.hd
      exact ⟨{ b with last := b.base + 64, failed := 0 }, t.map (fun b => { b with last := b.base + 64, failed := 0 }), by simp only [hb, List.map_cons], h64⟩
    · intro b hb
      obtain ⟨c, hcm, rfl⟩ := List.mem_map.1 hb
      obtain ⟨h1, h2, h3, h4, h5, h6, h7⟩ := hc.blk c hcm
      refine ⟨h1, h2, h3, h4, h5, ?_, ?_⟩ <;> dsimp only <;> omega
    · refine hs1.trans ?_
      simp only [List.map_map, List.filterMap_nil, List.append_nil]
      exact List.Perm.refl _
    · exact pairwise_perm hs1.symm hd1
    · intro r hr
      exact hc.sysp r (hp.mem_iff.2 (List.mem_append_right _ (hs1.mem_iff.1 hr)))
    · exact List.Pairwise.nil
    · intro r hr; cases hr
    · intro r hr; cases hr
    · show 0 < (List.map _ s.pool.blocks).length
      rw [List.length_map]; have := h.q.cur; omega
    · intro r hr; cases hr

theorem hist_inv {size a ext s} (hg : GoodCreate size a ext) (h : Hist size a ext s) : Inv size ext s := by
  induction h with
  | init => exact create_inv hg
  | step _ ha e ih =>
    obtain ⟨s1, r1, e1, hi⟩ := apply_inv ih _ ha
    rw [e] at e1
    cases e1
    exact hi

/-- the invariant keeps the client's blocks apart -/
theorem Inv.safe {S : Nat} {ext : List Region} {s : St} (hi : Inv S ext s) :
    s.user.Pairwise Disj ∧
    (∀ r ∈ s.user, ∃ q ∈ owned s.pool, q ∈ s.sys ∧ Inside r q) ∧
    (∀ r ∈ s.user, ∀ m ∈ records s.pool, Disj r m) ∧
    (∀ r ∈ s.user, ∀ x ∈ ext, Disj r x) := by
  have hc := hi.q.core
  obtain ⟨hu, hn, hun⟩ := List.pairwise_append.1 hc.regs
  have hown : ∀ r ∈ s.user, ∃ q ∈ owned s.pool, q ∈ s.sys ∧ Inside r q := by
    intro r hr
    rcases hc.loc r (by simp [hr]) with ⟨b, hb, h1, h2⟩ | hl
    · exact ⟨b.region, by simp only [owned, List.mem_append, List.mem_map]; exact Or.inl ⟨b, hb, rfl⟩,
        hc.mem_sys.2 (Or.inl ⟨b, hb, rfl⟩), hc.inside hb h1 h2⟩
    · exact ⟨r, by simp only [owned, List.mem_append]; exact Or.inr hl, hc.mem_sys.2 (Or.inr (Or.inl hl)), Nat.le_refl _, Nat.le_refl _⟩
  refine ⟨hu, hown, ?_, ?_⟩
  · intro r hr m hm
    have hm' : (∃ b ∈ s.pool.blocks, m = b.header) ∨ m ∈ nodes s.pool := by
      simp only [records, List.mem_append, List.mem_map] at hm
      simp only [nodes, List.mem_append, List.mem_map]
      rcases hm with (⟨b, hb, rfl⟩ | hm) | hm
      · exact Or.inl ⟨b, hb, rfl⟩
      · exact Or.inr (Or.inl hm)
      · exact Or.inr (Or.inr hm)
    rcases hm' with ⟨c, hcm, rfl⟩ | hm'
    · have hcb := hc.blk c hcm
      have hin : Inside c.header c.region := by
        unfold Inside Block.header Block.region; dsimp only; omega
      rcases hc.loc r (by simp [hr]) with ⟨b, hb, h1, h2⟩ | hl
      · obtain ⟨l1, l2, hsp⟩ := List.append_of_mem hb
        rw [hsp] at hcm
        rcases List.mem_append.1 hcm with h' | h'
        · exact (hc.blocks_apart hsp c (by simp [h'])).mono (hc.inside hb h1 h2) hin
        · rcases List.mem_cons.1 h' with rfl | h'
          · refine Or.inr ?_
            show c.base + c.hdr ≤ r.addr
            exact h1
          · exact (hc.blocks_apart hsp c (by simp [h'])).mono (hc.inside hb h1 h2) hin
      · exact ((hc.block_large hcm hl).mono hin ⟨Nat.le_refl _, Nat.le_refl _⟩).symm
    · exact hun r hr m hm'
  · intro r hr x hx
    obtain ⟨q, hq, _, hin⟩ := hown r hr
    have hp := pairwise_perm hc.perm hc.sysd
    exact ((List.pairwise_append.1 hp).2.2 q hq x hx).mono hin ⟨Nat.le_refl _, Nat.le_refl _⟩

/-- **C12.** After every history of pool requests, whatever the system allocator answers: the blocks the client holds are
pairwise disjoint, each lies inside memory the pool owns and has not returned, and none touches a record of the pool
(block headers, large entries, clean-up entries). -/
theorem pool_blocks_safe {size a : Nat} {ext : List Region} {s : St} (hg : GoodCreate size a ext) (h : Hist size a ext s) :
    s.user.Pairwise Disj ∧
    (∀ r ∈ s.user, ∃ q ∈ owned s.pool, q ∈ s.sys ∧ Inside r q) ∧
    (∀ r ∈ s.user, ∀ m ∈ records s.pool, Disj r m) ∧
    (∀ r ∈ s.user, ∀ x ∈ ext, Disj r x) :=
  (hist_inv hg h).safe

/-- **C12.** No request of a history makes the pool free something it should not. -/
theorem pool_no_failure {size a : Nat} {ext : List Region} {s : St} (hg : GoodCreate size a ext) (h : Hist size a ext s) (o : Op)
    (ha : Allowed s o) : ∃ s' r, apply s o = some (s', r) := by
  obtain ⟨s', r, e, _⟩ := apply_inv (hist_inv hg h) o ha
  exact ⟨s', r, e⟩

/-- **C12.** `kgl_palloc` returns NULL only if the system allocator did, and otherwise an 8-aligned block of the requested size
that is added to the client's blocks; the blocks it already had stay. -/
theorem pool_palloc_result {size a : Nat} {ext : List Region} {s : St} (hg : GoodCreate size a ext) (h : Hist size a ext s) {n : Nat}
    {o1 o2 : Option Nat} (ha : Allowed s (.palloc n o1 o2)) :
    ∃ s' r, apply s (.palloc n o1 o2) = some (s', r) ∧
      (∀ m, r = some m → m % 8 = 0 ∧ s'.user = ⟨m, n⟩ :: s.user) ∧
      (r = none → s'.user = s.user ∧ (o1 = none ∨ o2 = none)) := by
  have hi := hist_inv hg h
  obtain ⟨p', sys', r, e, g, ga⟩ := palloc_gives hi.q ha.1 true ha.2
  refine ⟨(give s n (p', sys', r)).1, (give s n (p', sys', r)).2, by simp only [apply, e, Option.map_some], ?_, ?_⟩
  · intro m hm
    cases r with
    | none => cases hm
    | some m' =>
      cases hm
      exact ⟨(ga m rfl).1 rfl, rfl⟩
  · intro hr
    cases r with
    | some m' => cases hr
    | none =>
      refine ⟨rfl, ?_⟩
      refine Classical.byContradiction fun hno => ?_
      rw [not_or] at hno
      obtain ⟨x, rfl⟩ := Option.ne_none_iff_exists'.1 hno.1
      obtain ⟨y, rfl⟩ := Option.ne_none_iff_exists'.1 hno.2
      have hs : ∀ (p : Pool) sys k b z, (pallocSmall p sys k b (some z)).2.2 ≠ none := by
        intro p sys k b z
        unfold pallocSmall
        split
        · intro h; cases h
        · simp [pallocBlock]
      unfold palloc at e
      split at e
      · have := hs s.pool s.sys n true x
        simp only [Option.some.injEq] at e
        rw [e] at this; exact this rfl
      · simp only [pallocLarge] at e
        split at e
        · cases e
        · unfold addLarge at e
          have := hs s.pool (⟨x, n⟩ :: s.sys) 16 true y
          generalize pallocSmall s.pool (⟨x, n⟩ :: s.sys) 16 true (some y) = t at *
          obtain ⟨t1, t2, t3⟩ := t
          cases t3 with
          | none => exact this rfl
          | some v => cases e

/-- **C12.** What a pool of `size` bytes hands out of its blocks: requests of up to its room behind the header (64 bytes), and never more than `UINT_MAX`. -/
theorem pool_limit {size a : Nat} (h1 : 64 ≤ size) (h2 : size < 2 ^ 64) : (create size a).max = min (size - 64) 4294967295 := by
  have hw : wsub size 64 = size - 64 := by unfold wsub; omega
  simp only [create, hw, maxFromPool]
  split <;> omega

example : (create 4294967360 1024).max = 4294967295 ∧ (create 1024 1024).max = 960 := by decide +kernel

/-- **C12.** `kgl_pmemalign` returns a block with the requested alignment. -/
theorem pool_pmemalign_result {size a : Nat} {ext : List Region} {s s' : St} (hg : GoodCreate size a ext) (h : Hist size a ext s)
    {n al m : Nat} {o1 o2 : Option Nat} (ha : Allowed s (.pmemalign n al o1 o2))
    (e : apply s (.pmemalign n al o1 o2) = some (s', some m)) : m % al = 0 ∧ s'.user = ⟨m, n⟩ :: s.user := by
  have hi := hist_inv hg h
  cases o1 with
  | none => cases e
  | some x =>
    have hf := ha.2.2 x rfl
    rw [hi.q.psize] at hf
    obtain ⟨p', sys', m', e', g, gm⟩ := addLarge_gives hi.q (r := ⟨x, n⟩) ha.1 (ha.2.1 x rfl).2.2 hf
    simp only [apply, pmemalign, e', Option.map_some, Option.some.injEq] at e
    cases m' with
    | none => cases e
    | some v =>
      cases e
      obtain rfl := gm _ rfl
      exact ⟨(ha.2.1 _ rfl).1, rfl⟩

/-- **C13.** Destroying a pool after any history runs every registered clean-up that has a handler, once, in reverse order of
registration, then frees every large allocation and every block exactly once; exactly the allocations that are not the
pool's remain. -/
theorem pool_destroy_exact {size a : Nat} {ext : List Region} {s : St} (hg : GoodCreate size a ext) (h : Hist size a ext s) :
    ∃ frees sys', destroy s.pool s.sys = some (runCleanups s.regs.reverse ++ frees.map .free, sys') ∧
      frees = (s.pool.large.filterMap Large.alloc).map Region.addr ++ s.pool.blocks.map Block.base ∧
      frees.Nodup ∧ sys'.Perm ext := by
  have hi := hist_inv hg h
  have hc := hi.q.core
  have hp : s.sys.Perm ((s.pool.large.filterMap Large.alloc ++ s.pool.blocks.map Block.region) ++ ext) :=
    hc.perm.trans (List.Perm.append_right _ List.perm_append_comm)
  obtain ⟨s1, e1, hs1⟩ := freeAll_spec _ _ _ hc.sysd hc.sysp hp
  have hmap : (s.pool.large.filterMap Large.alloc ++ s.pool.blocks.map Block.region).map Region.addr =
      largeAddrs s.pool.large ++ s.pool.blocks.map Block.base := by
    rw [List.map_append, largeAddrs_eq, List.map_map]; rfl
  rw [hmap] at e1
  refine ⟨largeAddrs s.pool.large ++ s.pool.blocks.map Block.base, s1, ?_, by rw [largeAddrs_eq], ?_, hs1⟩
  · simp only [destroy, e1, Option.map_some, hi.clean]
  · rw [← hmap]
    have hd := (List.pairwise_append.1 (pairwise_perm hp hc.sysd)).1
    have hpos : ∀ r ∈ s.pool.large.filterMap Large.alloc ++ s.pool.blocks.map Block.region, 0 < r.size :=
      fun r hr => hc.sysp r (hp.mem_iff.2 (List.mem_append_left _ hr))
    generalize s.pool.large.filterMap Large.alloc ++ s.pool.blocks.map Block.region = l at hd hpos
    induction l with
    | nil => exact List.nodup_nil
    | cons r l ih =>
      rw [List.map_cons, List.nodup_cons]
      rw [List.pairwise_cons] at hd
      refine ⟨fun hm => ?_, ih hd.2 (fun q hq => hpos q (by simp [hq]))⟩
      obtain ⟨q, hq, hqr⟩ := List.mem_map.1 hm
      have h1 := hd.1 q hq
      have h2 := hpos q (by simp [hq])
      have h3 := hpos r (by simp)
      unfold Disj at h1
      omega

/-- **C13.** `kgl_reset_pool` runs the clean-ups in reverse order of registration, frees the large allocations and keeps the blocks. -/
theorem pool_reset_exact {size a : Nat} {ext : List Region} {s : St} (hg : GoodCreate size a ext) (h : Hist size a ext s) :
    ∃ s' r, apply s .reset = some (s', r) ∧
      s'.events = s.events ++ (runCleanups s.regs.reverse ++ ((s.pool.large.filterMap Large.alloc).map Region.addr).map .free) ∧
      s'.user = [] ∧ s'.regs = [] ∧ s'.sys.Perm (s.pool.blocks.map Block.region ++ ext) := by
  have hi := hist_inv hg h
  have hc := hi.q.core
  have hp : s.sys.Perm (s.pool.large.filterMap Large.alloc ++ (s.pool.blocks.map Block.region ++ ext)) := by
    refine hc.perm.trans ?_
    rw [← List.append_assoc]
    exact List.Perm.append_right _ List.perm_append_comm
  obtain ⟨s1, e1, hs1⟩ := freeAll_spec _ _ _ hc.sysd hc.sysp hp
  rw [← largeAddrs_eq] at e1
  refine ⟨({ s with pool := { s.pool with blocks := s.pool.blocks.map (fun b => { b with last := b.base + 64, failed := 0 }), current := 0, large := [], cleanup := [] }, sys := s1, user := [], regs := [], events := s.events ++ (runCleanups s.pool.cleanup ++ (largeAddrs s.pool.large).map .free) } : St), none, by simp only [apply, reset, e1, Option.map_some], ?_, rfl, rfl, hs1⟩
  rw [hi.clean, largeAddrs_eq]

/-- **C13.** `kgl_pfree(p)` succeeds exactly when `p` is a large allocation of the pool that is still held, frees it, and
afterwards the pool does not hold it any more, so that a second `kgl_pfree(p)` is refused. -/
theorem pool_pfree_once {size a : Nat} {ext : List Region} {s : St} (hg : GoodCreate size a ext) (h : Hist size a ext s) (x : Nat) :
    ∃ s' r, apply s (.pfree x) = some (s', r) ∧
      (r = some x ↔ x ∈ (s.pool.large.filterMap Large.alloc).map Region.addr) ∧
      (r = some x → s'.events = s.events ++ [.free x] ∧ x ∉ s'.sys.map Region.addr ∧
        x ∉ (s'.pool.large.filterMap Large.alloc).map Region.addr) ∧
      (r ≠ some x → s' = s) := by
  have hi := hist_inv hg h
  simp only [apply, pfree]
  cases hc : clearLarge x s.pool.large with
  | none =>
    have := clearLarge_none _ hc
    rw [largeAddrs_eq] at this
    refine ⟨_, _, rfl, ⟨fun h => (by cases h), fun h => absurd h this⟩, fun h => (by cases h), fun _ => rfl⟩
  | some ls =>
    obtain ⟨r, rfl, hp, hn⟩ := clearLarge_spec _ _ hc
    have hcore := hi.q.core.perm_L hp
    obtain ⟨s1, e1, hs1⟩ := sysFree_spec hcore.sysd hcore.sysp (r := r) (hcore.mem_sys.2 (Or.inr (Or.inl (by simp))))
    simp only [e1, Option.map_some, if_true]
    refine ⟨_, _, rfl, ⟨fun _ => ?_, fun _ => rfl⟩, fun _ => ⟨rfl, ?_, ?_⟩, fun h => absurd rfl h⟩
    · exact List.mem_map.2 ⟨r, hp.mem_iff.2 (by simp), rfl⟩
    · intro hm
      obtain ⟨q, hq, hqr⟩ := List.mem_map.1 hm
      have hd := pairwise_perm hs1 hcore.sysd
      have h1 := (List.pairwise_cons.1 hd).1 q hq
      have h2 := hcore.sysp q (hs1.mem_iff.2 (by simp [hq]))
      have h3 := hcore.sysp r (hs1.mem_iff.2 (by simp))
      unfold Disj at h1; omega
    · intro hm
      obtain ⟨q, hq, hqr⟩ := List.mem_map.1 hm
      have hd := pairwise_perm hcore.perm hcore.sysd
      have hd := (List.pairwise_append.1 (List.pairwise_append.1 hd).1).2.1
      have h1 := (List.pairwise_cons.1 hd).1 q hq
      have h2 := hcore.sysp q (hcore.mem_sys.2 (Or.inr (Or.inl (by exact List.mem_cons_of_mem _ hq))))
      have h3 := hcore.sysp r (hs1.mem_iff.2 (by simp))
      unfold Disj at h1; omega

/-- **Finding (C12).** In a pool whose size is not a multiple of 8 an aligned allocation can lie behind the end of the block:
`end - m` wraps. -/
theorem pool_unaligned_size_overflows :
    ∃ p1 p2 : Pool, palloc (create 93 1024) [⟨1024, 93⟩] 29 false none none = some (p1, [⟨1024, 93⟩], some 1088) ∧
      palloc p1 [⟨1024, 93⟩] 8 true none none = some (p2, [⟨1024, 93⟩], some 1120) ∧ 1024 + 93 < 1120 := by
  refine ⟨_, _, rfl, rfl, by decide⟩

/-- **Finding (C12).** A pool smaller than its own header (64 bytes) hands out memory behind its block. -/
theorem pool_too_small_overflows :
    ∃ p, palloc (create 32 1024) [⟨1024, 32⟩] 100 true none none = some (p, [⟨1024, 32⟩], some 1088) ∧ 1024 + 32 < 1088 := by
  refine ⟨_, rfl, by decide⟩

/-- **Finding (C13).** In a pool with less than 24 bytes of room a clean-up entry is itself a large allocation, so that
`kgl_pfree` of the returned entry frees memory the pool still refers to. -/
theorem pool_cleanup_entry_freed :
    ∃ p1 sys1 p2 sys2, cleanupAdd (create 80 1024) [⟨1024, 80⟩] (some 7) 0 (some 4096) none = some (p1, sys1, some 4096) ∧
      pfree p1 sys1 4096 = some (p2, sys2, true) ∧ 4096 ∈ p2.cleanup.map Clean.node ∧ 4096 ∉ sys2.map Region.addr := by
  refine ⟨_, _, _, _, rfl, rfl, by decide, by decide⟩

/-- the hypotheses are met: a history with a second block, a large allocation, a clean-up and a free -/
theorem good_example : GoodCreate 96 1024 [⟨0, 16⟩] :=
  ⟨by decide, by decide, by decide, by decide, by decide, by decide, by decide⟩

def ex1 : St := ⟨create 96 1024, [⟨1024, 96⟩, ⟨0, 16⟩], [], [], []⟩
def ex2 : St := ⟨{ blocks := [⟨1024, 96, 64, 1112, 0⟩], max := 32 }, [⟨1024, 96⟩, ⟨0, 16⟩], [⟨1088, 24⟩], [], []⟩
def ex3 : St := ⟨{ blocks := [⟨1024, 96, 64, 1112, 0⟩, ⟨8192, 96, 32, 8240, 0⟩], max := 32, large := [⟨8224, some ⟨4096, 100⟩⟩] },
  [⟨8192, 96⟩, ⟨4096, 100⟩, ⟨1024, 96⟩, ⟨0, 16⟩], [⟨4096, 100⟩, ⟨1088, 24⟩], [], []⟩

example : Hist 96 1024 [⟨0, 16⟩] ex3 := by
  have h1 : Hist 96 1024 [⟨0, 16⟩] ex1 := .init
  have h2 : Hist 96 1024 [⟨0, 16⟩] ex2 :=
    h1.step (o := .palloc 24 none none) (r := some 1088) ⟨by decide, by simp [FreshFor, ex1, create, Fresh, wsub, maxFromPool]⟩ (by decide)
  refine h2.step (o := .palloc 100 (some 4096) (some 8192)) (r := some 4096) ⟨by decide, ?_⟩ (by decide)
  unfold FreshFor
  rw [if_neg (by decide)]
  refine ⟨?_, ?_⟩
  · intro a h; cases h; exact ⟨by decide, by decide, by decide⟩
  · intro a h; cases h; intro b h; cases h; exact ⟨by decide, by decide, by decide⟩

end Kasync.Pool
