import Verif.Pool.Spec

/-! # Invariant of the pool -/

namespace Kasync.Pool

theorem Disj.symm {r q : Region} (h : Disj r q) : Disj q r := Or.symm h

theorem pairwise_perm {l l' : List Region} (h : l.Perm l') (hp : l.Pairwise Disj) : l'.Pairwise Disj :=
  hp.perm h Disj.symm

theorem Disj.mono {r q r' q' : Region} (h : Disj r q) (hr : Inside r' r) (hq : Inside q' q) : Disj r' q' := by
  unfold Disj Inside at *
  omega

/-- the carved region lies between the header and `last` of a block -/
def InBlk (bs : List Block) (r : Region) : Prop := ∃ b ∈ bs, b.base + b.hdr ≤ r.addr ∧ r.addr + r.size ≤ b.last

/-- Core invariant: blocks `bs` of size `S`, large allocations `L`, foreign allocations `ext`, carved regions `R`. -/
structure Core (S : Nat) (ext : List Region) (bs : List Block) (L sys R : List Region) : Prop where
  big : 88 ≤ S
  mult : S % 8 = 0
  hd : ∃ b t, bs = b :: t ∧ b.hdr = 64
  blk : ∀ b ∈ bs, b.size = S ∧ b.base % 16 = 0 ∧ b.base + S < 2 ^ 64 ∧ 32 ≤ b.hdr ∧ b.hdr ≤ 64 ∧ b.base + b.hdr ≤ b.last ∧
    b.last ≤ b.base + S
  perm : sys.Perm (bs.map Block.region ++ L ++ ext)
  sysd : sys.Pairwise Disj
  sysp : ∀ r ∈ sys, 0 < r.size
  regs : R.Pairwise Disj
  pos : ∀ r ∈ R, 0 < r.size
  loc : ∀ r ∈ R, InBlk bs r ∨ r ∈ L

theorem Core.perm_R {S ext bs L sys R R'} (h : Core S ext bs L sys R) (hp : R.Perm R') : Core S ext bs L sys R' :=
  { h with regs := pairwise_perm hp h.regs, pos := fun r hr => h.pos r (hp.mem_iff.2 hr),
           loc := fun r hr => h.loc r (hp.mem_iff.2 hr) }

theorem Core.sub_R {S ext bs L sys R R'} (h : Core S ext bs L sys R) (hp : R'.Sublist R) : Core S ext bs L sys R' :=
  { h with regs := h.regs.sublist hp, pos := fun r hr => h.pos r (hp.subset hr), loc := fun r hr => h.loc r (hp.subset hr) }

theorem Core.perm_L {S ext bs L L' sys R} (h : Core S ext bs L sys R) (hp : L.Perm L') : Core S ext bs L' sys R :=
  { h with perm := h.perm.trans (List.Perm.append_right _ (List.Perm.append_left _ hp)),
           loc := fun r hr => (h.loc r hr).imp id (fun h => hp.mem_iff.1 h) }

theorem Core.mem_sys {S ext bs L sys R} (h : Core S ext bs L sys R) {r : Region} :
    r ∈ sys ↔ (∃ b ∈ bs, r = b.region) ∨ r ∈ L ∨ r ∈ ext := by
  rw [h.perm.mem_iff]
  simp only [List.mem_append, List.mem_map, or_assoc, eq_comm]

theorem Core.inside {S ext bs L sys R} (h : Core S ext bs L sys R) {r : Region} {b : Block} (hb : b ∈ bs)
    (h1 : b.base + b.hdr ≤ r.addr) (h2 : r.addr + r.size ≤ b.last) : Inside r b.region := by
  have := h.blk b hb
  unfold Inside Block.region
  dsimp only
  omega

theorem Core.blocks_apart {S ext bs L sys R} (h : Core S ext bs L sys R) {l1 l2 : List Block} {b : Block} (hb : bs = l1 ++ b :: l2) :
    ∀ c ∈ l1 ++ l2, Disj b.region c.region := by
  intro c hc
  have hp := pairwise_perm h.perm h.sysd
  have hp : (bs.map Block.region).Pairwise Disj := (List.pairwise_append.1 (List.pairwise_append.1 hp).1).1
  rw [hb, List.map_append, List.map_cons] at hp
  have hp2 := pairwise_perm (List.perm_middle) hp
  rw [List.pairwise_cons] at hp2
  exact hp2.1 _ (by rw [← List.map_append]; exact List.mem_map_of_mem hc)

theorem Core.block_large {S ext bs L sys R} (h : Core S ext bs L sys R) {b : Block} (hb : b ∈ bs) {r : Region} (hr : r ∈ L) :
    Disj b.region r := by
  have hp := pairwise_perm h.perm h.sysd
  exact (List.pairwise_append.1 (List.pairwise_append.1 hp).1).2.2 _ (List.mem_map_of_mem hb) _ hr

/-- carving `[m, m+n)` behind `last` in one block -/
theorem Core.carve {S ext L sys R} {l1 l2 : List Block} {b : Block} (h : Core S ext (l1 ++ b :: l2) L sys R) {m n : Nat}
    (hn : 0 < n) (hm : b.last ≤ m) (he : m + n ≤ b.base + S) :
    Core S ext (l1 ++ { b with last := m + n } :: l2) L sys (⟨m, n⟩ :: R) := by
  have hbm : b ∈ l1 ++ b :: l2 := by simp
  have hb := h.blk b hbm
  refine { big := h.big, mult := h.mult, hd := ?_, blk := ?_, perm := ?_, sysd := h.sysd, sysp := h.sysp, regs := ?_, pos := ?_, loc := ?_ }
  · obtain ⟨c, t, hc, h64⟩ := h.hd
    cases l1 with
    | nil =>
      cases hc
      exact ⟨_, _, rfl, h64⟩
    | cons x xs =>
      cases hc
      exact ⟨_, _, rfl, h64⟩
  · intro c hc
    rcases List.mem_append.1 hc with hc | hc
    · exact h.blk c (by simp [hc])
    · rcases List.mem_cons.1 hc with rfl | hc
      · refine ⟨hb.1, hb.2.1, hb.2.2.1, hb.2.2.2.1, hb.2.2.2.2.1, ?_, ?_⟩
        · show b.base + b.hdr ≤ m + n; omega
        · exact he
      · exact h.blk c (by simp [hc])
  · have := h.perm
    simp only [List.map_append, List.map_cons] at this ⊢
    exact this
  · rw [List.pairwise_cons]
    refine ⟨fun r hr => ?_, h.regs⟩
    have hin : Inside ⟨m, n⟩ b.region := by
      unfold Inside Block.region; dsimp only; omega
    rcases h.loc r hr with ⟨c, hc, h1, h2⟩ | hl
    · rcases List.mem_append.1 hc with hc' | hc'
      · exact (h.blocks_apart rfl c (by simp [hc'])).mono hin (h.inside hc h1 h2)
      · rcases List.mem_cons.1 hc' with rfl | hc'
        · refine Or.inr ?_
          show r.addr + r.size ≤ m
          omega
        · exact (h.blocks_apart rfl c (by simp [hc'])).mono hin (h.inside hc h1 h2)
    · exact (h.block_large hbm hl).mono hin ⟨Nat.le_refl _, Nat.le_refl _⟩
  · intro r hr
    rcases List.mem_cons.1 hr with rfl | hr
    · exact hn
    · exact h.pos r hr
  · intro r hr
    rcases List.mem_cons.1 hr with rfl | hr
    · refine Or.inl ⟨{ b with last := m + n }, by simp, ?_, Nat.le_refl _⟩
      show b.base + b.hdr ≤ m; omega
    · rcases h.loc r hr with ⟨c, hc, h1, h2⟩ | hl
      · rcases List.mem_append.1 hc with hc' | hc'
        · exact Or.inl ⟨c, by simp [hc'], h1, h2⟩
        · rcases List.mem_cons.1 hc' with rfl | hc'
          · refine Or.inl ⟨{ c with last := m + n }, by simp, h1, ?_⟩
            show r.addr + r.size ≤ m + n; omega
          · exact Or.inl ⟨c, by simp [hc'], h1, h2⟩
      · exact Or.inr hl

/-- a new block -/
theorem Core.addBlock {S ext bs L sys R} (h : Core S ext bs L sys R) {a : Nat} (ha : a % 16 = 0) (hb : a + S < 2 ^ 64)
    (hd : ∀ r ∈ sys, Disj ⟨a, S⟩ r) :
    Core S ext (bs ++ [{ base := a, size := S, hdr := 32, last := a + 32 }]) L (⟨a, S⟩ :: sys) R := by
  have hbig := h.big
  refine { big := h.big, mult := h.mult, hd := ?_, blk := ?_, perm := ?_, sysd := ?_, sysp := ?_, regs := h.regs, pos := h.pos, loc := ?_ }
  · obtain ⟨c, t, hc, h64⟩ := h.hd
    exact ⟨c, _, by rw [hc]; rfl, h64⟩
  · intro c hc
    rcases List.mem_append.1 hc with hc | hc
    · exact h.blk c hc
    · rw [List.mem_singleton] at hc
      subst hc
      refine ⟨rfl, ha, hb, ?_, ?_, ?_, ?_⟩ <;> dsimp only <;> omega
  · rw [List.map_append]
    refine ((List.perm_cons _).2 h.perm).trans ?_
    simp only [List.map_cons, List.map_nil, List.append_assoc, List.singleton_append]
    exact (List.perm_middle).symm
  · rw [List.pairwise_cons]; exact ⟨hd, h.sysd⟩
  · intro r hr
    rcases List.mem_cons.1 hr with rfl | hr
    · show 0 < S; omega
    · exact h.sysp r hr
  · intro r hr
    rcases h.loc r hr with ⟨c, hc, h1, h2⟩ | hl
    · exact Or.inl ⟨c, by simp [hc], h1, h2⟩
    · exact Or.inr hl

/-- a new large allocation -/
theorem Core.addL {S ext bs L sys R} (h : Core S ext bs L sys R) {r : Region} (hp : 0 < r.size) (hd : ∀ q ∈ sys, Disj r q) :
    Core S ext bs (r :: L) (r :: sys) (r :: R) := by
  refine { h with perm := ?_, sysd := ?_, sysp := ?_, regs := ?_, pos := ?_, loc := ?_ }
  · refine ((List.perm_cons _).2 h.perm).trans ?_
    simp only [List.append_assoc, List.cons_append]
    exact (List.perm_middle).symm
  · rw [List.pairwise_cons]; exact ⟨hd, h.sysd⟩
  · intro q hq
    rcases List.mem_cons.1 hq with rfl | hq
    · exact hp
    · exact h.sysp q hq
  · rw [List.pairwise_cons]
    refine ⟨fun q hq => ?_, h.regs⟩
    rcases h.loc q hq with ⟨c, hc, h1, h2⟩ | hl
    · exact (hd _ (h.mem_sys.2 (Or.inl ⟨c, hc, rfl⟩))).mono ⟨Nat.le_refl _, Nat.le_refl _⟩ (h.inside hc h1 h2)
    · exact hd _ (h.mem_sys.2 (Or.inr (Or.inl hl)))
  · intro q hq
    rcases List.mem_cons.1 hq with rfl | hq
    · exact hp
    · exact h.pos q hq
  · intro q hq
    rcases List.mem_cons.1 hq with rfl | hq
    · exact Or.inr (by simp)
    · rcases h.loc q hq with hb | hl
      · exact Or.inl hb
      · exact Or.inr (by simp [hl])

/-- blocks changed only in their failure counter -/
def SameMem (bs bs' : List Block) : Prop := bs.map (fun b => { b with failed := 0 }) = bs'.map (fun b => { b with failed := 0 })

theorem SameMem.mem {bs bs' : List Block} (h : SameMem bs bs') {b : Block} (hb : b ∈ bs) : ∃ k, { b with failed := k } ∈ bs' := by
  have : ({ b with failed := 0 } : Block) ∈ bs'.map (fun b => { b with failed := 0 }) := by
    rw [← h]; exact List.mem_map_of_mem (f := fun b : Block => { b with failed := 0 }) hb
  obtain ⟨c, hc, e⟩ := List.mem_map.1 this
  refine ⟨c.failed, ?_⟩
  have : ({ b with failed := c.failed } : Block) = c := by
    cases b; cases c; simp at e ⊢; exact ⟨e.1.symm, e.2.1.symm, e.2.2.1.symm, e.2.2.2.symm⟩
  rwa [this]

theorem SameMem.symm {bs bs' : List Block} (h : SameMem bs bs') : SameMem bs' bs := Eq.symm h

theorem SameMem.region {bs bs' : List Block} (h : SameMem bs bs') : bs.map Block.region = bs'.map Block.region := by
  have := congrArg (List.map Block.region) h
  rw [List.map_map, List.map_map] at this
  exact this

theorem Core.same {S ext bs bs' L sys R} (h : Core S ext bs L sys R) (hs : SameMem bs bs') : Core S ext bs' L sys R := by
  refine { h with hd := ?_, blk := ?_, perm := ?_, loc := ?_ }
  · obtain ⟨c, t, hc, h64⟩ := h.hd
    cases bs' with
    | nil => rw [hc] at hs; simp [SameMem] at hs
    | cons c' t' =>
      rw [hc] at hs
      simp only [SameMem, List.map_cons, List.cons.injEq, Block.mk.injEq] at hs
      exact ⟨c', t', rfl, by rw [← hs.1.2.2.1]; exact h64⟩
  · intro b hb
    obtain ⟨k, hk⟩ := hs.symm.mem hb
    exact (h.blk _ hk : _)
  · rw [← hs.region]; exact h.perm
  · intro r hr
    rcases h.loc r hr with ⟨c, hc, h1, h2⟩ | hl
    · obtain ⟨k, hk⟩ := hs.mem hc
      exact Or.inl ⟨_, hk, h1, h2⟩
    · exact Or.inr hl

theorem bump_spec : ∀ (i : Nat) (bs : List Block) (cur : Nat), SameMem bs (bump i bs cur).1 ∧ (cur ≤ i → i ≤ (bump i bs cur).2 ∨ (bump i bs cur).2 = cur) ∧
    (cur < i + bs.length → (bump i bs cur).2 < i + bs.length)
  | i, [], cur => ⟨rfl, fun _ => Or.inr rfl, fun h => h⟩
  | i, [b], cur => ⟨rfl, fun _ => Or.inr rfl, fun h => h⟩
  | i, b :: b' :: bs, cur => by
    obtain ⟨h1, h2, h3⟩ := bump_spec (i + 1) (b' :: bs) (if b.failed > 4 then i + 1 else cur)
    rw [bump]
    refine ⟨?_, ?_, ?_⟩
    · unfold SameMem at h1 ⊢
      rw [List.map_cons, List.map_cons (l := (bump _ _ _).1), ← h1]
    · intro hc
      dsimp only
      by_cases hf : b.failed > 4
      · simp only [if_pos hf] at h2 ⊢; have := h2 (Nat.le_refl _); omega
      · simp only [if_neg hf] at h2 ⊢; have := h2 (by omega); omega
    · intro hc
      dsimp only
      have : (if b.failed > 4 then i + 1 else cur) < i + 1 + (b' :: bs).length := by
        simp only [List.length_cons] at hc ⊢
        split <;> omega
      have := h3 this
      simp only [List.length_cons] at this ⊢
      omega

theorem wsub_ge {x y n : Nat} (hy : y ≤ x) (hx : x < 2 ^ 64) : wsub x y ≥ n ↔ y + n ≤ x := by
  unfold wsub
  omega

theorem alignUp_le_end {x e : Nat} (he : e % 8 = 0) (h : x ≤ e) : alignUp x 8 ≤ e := by
  have h1 := alignUp_mod x 8
  have h2 := alignUp_lt x 8 (by omega)
  omega

theorem InBlk.append_left {bs q} (pre : List Block) (h : InBlk bs q) : InBlk (pre ++ bs) q := by
  obtain ⟨b, hb, h1⟩ := h
  exact ⟨b, by simp [hb], h1⟩

theorem InBlk.append_right {bs q} (post : List Block) (h : InBlk bs q) : InBlk (bs ++ post) q := by
  obtain ⟨b, hb, h1⟩ := h
  exact ⟨b, by simp [hb], h1⟩

theorem InBlk.append {bs bs' q} (h : InBlk (bs ++ bs') q) : InBlk bs q ∨ InBlk bs' q := by
  obtain ⟨b, hb, h1⟩ := h
  rcases List.mem_append.1 hb with hb | hb
  · exact Or.inl ⟨b, hb, h1⟩
  · exact Or.inr ⟨b, hb, h1⟩

theorem InBlk.same {bs bs' q} (h : InBlk bs q) (hs : SameMem bs bs') : InBlk bs' q := by
  obtain ⟨c, hc, h1⟩ := h
  obtain ⟨k, hk⟩ := hs.mem hc
  exact ⟨_, hk, h1⟩

/-- `kgl_palloc_small` and its fall-back, on blocks -/
theorem smallLoop_spec {S ext L sys R} {n : Nat} (hn : 0 < n) (al : Bool) : ∀ (bs pre : List Block), Core S ext (pre ++ bs) L sys R →
    ∀ bs' m, smallLoop n al bs = some (bs', m) →
      Core S ext (pre ++ bs') L sys (⟨m, n⟩ :: R) ∧ bs'.length = bs.length ∧ (al = true → m % 8 = 0) ∧
      InBlk bs' ⟨m, n⟩ ∧ (∀ q, InBlk bs q → InBlk bs' q)
  | [], _, _, _, _, e => by simp [smallLoop] at e
  | b :: bs, pre, h, bs', m, e => by
    have hb := h.blk b (by simp)
    have hS := h.mult
    rw [smallLoop] at e
    have hm0 : (if al = true then alignUp b.last 8 else b.last) ≤ b.base + S := by
      cases al
      · exact hb.2.2.2.2.2.2
      · exact alignUp_le_end (by omega) hb.2.2.2.2.2.2
    have hl0 : b.last ≤ (if al = true then alignUp b.last 8 else b.last) := by
      cases al
      · exact Nat.le_refl _
      · exact le_alignUp _ _ (by omega)
    have ha0 : al = true → (if al = true then alignUp b.last 8 else b.last) % 8 = 0 := by
      intro h; subst h; exact alignUp_mod _ _
    generalize (if al = true then alignUp b.last 8 else b.last) = m0 at *
    by_cases hc : wsub (b.base + b.size) m0 ≥ n
    · rw [if_pos hc] at e
      rw [hb.1, wsub_ge hm0 hb.2.2.1] at hc
      cases e
      refine ⟨h.carve hn hl0 hc, by simp, ha0, ⟨_, List.mem_cons_self, ?_, Nat.le_refl _⟩, ?_⟩
      · show b.base + b.hdr ≤ m; omega
      · rintro q ⟨c, hc', h1, h2⟩
        rcases List.mem_cons.1 hc' with rfl | hc'
        · exact ⟨_, List.mem_cons_self, h1, by show _ ≤ m + n; omega⟩
        · exact ⟨c, by simp [hc'], h1, h2⟩
    · rw [if_neg hc] at e
      rw [Option.map_eq_some_iff] at e
      obtain ⟨⟨bs1, m1⟩, e1, e2⟩ := e
      cases e2
      obtain ⟨h1, h2, h3, h4, h5⟩ := smallLoop_spec hn al bs (pre ++ [b]) (by simpa using h) bs1 m1 e1
      refine ⟨by simpa using h1, by simp [h2], h3, h4.append_left [b], ?_⟩
      intro q hq
      rcases InBlk.append (bs := [b]) hq with hq | hq
      · exact hq.append_right bs1
      · exact (h5 q hq).append_left [b]

/-- invariant of `Pool` and system together -/
structure PInv (S : Nat) (ext : List Region) (p : Pool) (sys R : List Region) : Prop where
  core : Core S ext p.blocks (p.large.filterMap Large.alloc) sys R
  cur : p.current < p.blocks.length
  max : p.max ≤ S - 64
  max24 : 24 ≤ p.max

theorem PInv.psize {S ext p sys R} (h : PInv S ext p sys R) : p.psize = S := by
  obtain ⟨c, t, hc, _⟩ := h.core.hd
  have := (h.core.blk c (by rw [hc]; simp)).1
  simp [Pool.psize, hc, this]

theorem PInv.perm_R {S ext p sys R R'} (h : PInv S ext p sys R) (hp : R.Perm R') : PInv S ext p sys R' :=
  { h with core := h.core.perm_R hp }

/-- a small allocation in terms of the core invariant, for any list of large allocations -/
theorem pallocSmall_core {S ext p L sys R} (h : Core S ext p.blocks L sys R) (hcur : p.current < p.blocks.length)
    {n : Nat} (hn : 0 < n) (hn2 : 32 + n ≤ S) (al : Bool) {o : Option Nat} (hps : p.psize = S)
    (ho : Fresh sys S 16 o) {p' sys' r} (e : pallocSmall p sys n al o = (p', sys', r)) :
    p'.large = p.large ∧ p'.cleanup = p.cleanup ∧ p'.max = p.max ∧
    (r = none → p' = p ∧ sys' = sys) ∧
    (∀ m, r = some m → Core S ext p'.blocks L sys' (⟨m, n⟩ :: R) ∧ p'.current < p'.blocks.length ∧
      (al = true → m % 8 = 0) ∧ InBlk p'.blocks ⟨m, n⟩ ∧ (∀ q, InBlk p.blocks q → InBlk p'.blocks q)) := by
  unfold pallocSmall at e
  have hsplit : p.blocks.take p.current ++ p.blocks.drop p.current = p.blocks := List.take_append_drop _ _
  cases hs : smallLoop n al (p.blocks.drop p.current) with
  | some q =>
    obtain ⟨bs', m⟩ := q
    rw [hs] at e
    simp only [Prod.mk.injEq] at e
    obtain ⟨rfl, rfl, rfl⟩ := e
    obtain ⟨h1, h2, h3, h4, h5⟩ := smallLoop_spec hn al _ _ (by rw [hsplit]; exact h) bs' m hs
    refine ⟨rfl, rfl, rfl, (fun h => (by cases h)), fun m' hm' => ?_⟩
    cases hm'
    refine ⟨h1, ?_, h3, h4.append_left _, ?_⟩
    · show p.current < (_ ++ bs').length
      rw [List.length_append, h2, ← List.length_append, hsplit]; exact hcur
    · intro q hq
      rw [← hsplit] at hq
      rcases hq.append with hq | hq
      · exact hq.append_right _
      · exact (h5 q hq).append_left _
  | none =>
    rw [hs] at e
    cases o with
    | none =>
      simp only [pallocBlock, Prod.mk.injEq] at e
      obtain ⟨rfl, rfl, rfl⟩ := e
      exact ⟨rfl, rfl, rfl, fun _ => ⟨rfl, rfl⟩, fun m h => (by cases h)⟩
    | some a =>
      obtain ⟨ha, hb, hd⟩ := ho a rfl
      simp only [pallocBlock, Prod.mk.injEq, hps] at e
      obtain ⟨rfl, rfl, rfl⟩ := e
      refine ⟨rfl, rfl, rfl, (fun h => (by cases h)), fun m hm => ?_⟩
      cases hm
      obtain ⟨hb1, _, hb3⟩ := bump_spec p.current (p.blocks.drop p.current) p.current
      have hsame : SameMem p.blocks (p.blocks.take p.current ++ (bump p.current (p.blocks.drop p.current) p.current).1) := by
        unfold SameMem at hb1 ⊢
        rw [List.map_append, ← hb1, ← List.map_append, hsplit]
      have hal : alignUp (a + 32) 8 = a + 32 := alignUp_eq_self (by omega) (by omega)
      have hc := ((h.same hsame).addBlock ha hb hd).carve (l2 := []) hn (m := a + 32) (n := n) (Nat.le_refl _) (by show a + 32 + n ≤ a + S; omega)
      rw [hal]
      refine ⟨hc, ?_, fun _ => by omega, ⟨_, List.mem_append_right _ (List.mem_singleton.2 rfl), ?_, Nat.le_refl _⟩, ?_⟩
      · have hlen := congrArg List.length hsame
        simp only [List.length_map] at hlen
        have := hb3 (by rw [List.length_drop]; omega)
        rw [List.length_drop] at this
        show (bump p.current (p.blocks.drop p.current) p.current).2 < (_ ++ _ : List Block).length
        rw [List.length_append, ← hlen, List.length_singleton]
        omega
      · show a + 32 ≤ a + 32; exact Nat.le_refl _
      · intro q hq
        exact (hq.same hsame).append_right _


/-! ## The system allocator's list -/

theorem addr_unique {sys : List Region} (hd : sys.Pairwise Disj) (hp : ∀ r ∈ sys, 0 < r.size) {r q : Region} (hr : r ∈ sys)
    (hq : q ∈ sys) (h : q.addr = r.addr) : q = r := by
  refine Classical.byContradiction fun hne => ?_
  have hp1 := hp r hr
  have hp2 := hp q hq
  obtain ⟨l1, l2, rfl⟩ := List.append_of_mem hr
  have h2 := pairwise_perm List.perm_middle hd
  rw [List.pairwise_cons] at h2
  have : q ∈ l1 ++ l2 := by
    rcases List.mem_append.1 hq with h | h
    · simp [h]
    · rcases List.mem_cons.1 h with h | h
      · exact absurd h hne
      · simp [h]
  have := h2.1 q this
  unfold Disj at this
  omega

theorem sysFree_spec {sys : List Region} (hd : sys.Pairwise Disj) (hp : ∀ r ∈ sys, 0 < r.size) {r : Region} (hr : r ∈ sys) :
    ∃ sys', sysFree sys r.addr = some sys' ∧ sys.Perm (r :: sys') := by
  have hm : r.addr ∈ sys.map Region.addr := List.mem_map_of_mem hr
  refine ⟨sys.eraseP (fun q => q.addr == r.addr), by rw [sysFree, if_pos hm], ?_⟩
  obtain ⟨q, l1, l2, h1, h2, h3, h4⟩ := List.exists_of_eraseP (p := fun q : Region => q.addr == r.addr) hr (by simp)
  rw [h4]
  have hq : q = r := addr_unique hd hp hr (by rw [h3]; simp) (by simpa using h2)
  subst hq
  rw [h3]
  exact List.perm_middle

theorem freeAll_spec : ∀ (Rs : List Region) (sys rest : List Region), sys.Pairwise Disj → (∀ r ∈ sys, 0 < r.size) →
    sys.Perm (Rs ++ rest) → ∃ sys', freeAll sys (Rs.map Region.addr) = some sys' ∧ sys'.Perm rest
  | [], sys, rest, _, _, h => ⟨sys, rfl, h⟩
  | r :: Rs, sys, rest, hd, hp, h => by
    obtain ⟨s1, e1, h1⟩ := sysFree_spec hd hp (r := r) (h.mem_iff.2 (by simp))
    have h2 : s1.Perm (Rs ++ rest) := by
      have := h1.symm.trans h
      rw [List.cons_append, List.perm_cons] at this
      exact this
    have hd1 := pairwise_perm h1 hd
    obtain ⟨s2, e2, h3⟩ := freeAll_spec Rs s1 rest (List.pairwise_cons.1 hd1).2 (fun q hq => hp q (h1.mem_iff.2 (by simp [hq]))) h2
    exact ⟨s2, by simp [freeAll, e1, e2], h3⟩

theorem Core.perm_sys {S ext bs L sys sys' R} (h : Core S ext bs L sys R) (hp : sys.Perm sys') : Core S ext bs L sys' R :=
  { h with perm := hp.symm.trans h.perm, sysd := pairwise_perm hp h.sysd, sysp := fun r hr => h.sysp r (hp.mem_iff.2 hr) }

/-- freeing a large allocation -/
theorem Core.remL {S ext bs L sys sys' R R'} {r : Region} (h : Core S ext bs (r :: L) sys R) (hp : sys.Perm (r :: sys'))
    (hs : R'.Sublist R) (hne : ∀ q ∈ R', q ≠ r) : Core S ext bs L sys' R' := by
  have hd1 := pairwise_perm hp h.sysd
  refine { big := h.big, mult := h.mult, hd := h.hd, blk := h.blk, perm := ?_, sysd := (List.pairwise_cons.1 hd1).2,
           sysp := fun q hq => h.sysp q (hp.mem_iff.2 (by simp [hq])), regs := h.regs.sublist hs,
           pos := fun q hq => h.pos q (hs.subset hq), loc := ?_ }
  · have := hp.symm.trans h.perm
    have h2 : (bs.map Block.region ++ r :: L ++ ext).Perm (r :: (bs.map Block.region ++ L ++ ext)) := by
      simp only [List.append_assoc, List.cons_append]
      exact List.perm_middle
    exact (List.perm_cons _).1 (this.trans h2)
  · intro q hq
    rcases h.loc q (hs.subset hq) with hb | hl
    · exact Or.inl hb
    · rcases List.mem_cons.1 hl with rfl | hl
      · exact absurd rfl (hne _ hq)
      · exact Or.inr hl

theorem reuse_spec {r : Region} : ∀ (ls : List Large) (n : Nat) (ls' : List Large), reuse r n ls = some ls' →
    (ls'.filterMap Large.alloc).Perm (r :: ls.filterMap Large.alloc) ∧ ls'.map Large.node = ls.map Large.node
  | [], _, _, e => by simp [reuse] at e
  | l :: ls, n, ls', e => by
    rw [reuse] at e
    by_cases hn : l.alloc = none
    · rw [if_pos hn] at e
      cases e
      simp [List.filterMap_cons, hn]
    · rw [if_neg hn] at e
      by_cases h3 : n > 3
      · rw [if_pos h3] at e; cases e
      · rw [if_neg h3, Option.map_eq_some_iff] at e
        obtain ⟨ls1, e1, rfl⟩ := e
        obtain ⟨h1, h2⟩ := reuse_spec ls (n + 1) ls1 e1
        cases ha : l.alloc with
        | none => exact absurd ha hn
        | some q =>
          simp only [List.filterMap_cons, ha, List.map_cons, h2, and_true]
          exact ((List.perm_cons q).2 h1).trans (List.Perm.swap _ _ _)

theorem clearLarge_spec {a : Nat} : ∀ (ls ls' : List Large), clearLarge a ls = some ls' →
    ∃ r, r.addr = a ∧ (ls.filterMap Large.alloc).Perm (r :: ls'.filterMap Large.alloc) ∧ ls'.map Large.node = ls.map Large.node
  | [], _, e => by simp [clearLarge] at e
  | l :: ls, ls', e => by
    rw [clearLarge] at e
    by_cases hn : l.alloc.map Region.addr = some a
    · rw [if_pos hn] at e
      cases e
      obtain ⟨r, hr, ha⟩ := Option.map_eq_some_iff.1 hn
      exact ⟨r, ha, by simp [List.filterMap_cons, hr], rfl⟩
    · rw [if_neg hn, Option.map_eq_some_iff] at e
      obtain ⟨ls1, e1, rfl⟩ := e
      obtain ⟨r, h0, h1, h2⟩ := clearLarge_spec ls ls1 e1
      refine ⟨r, h0, ?_, by simp [h2]⟩
      cases ha : l.alloc with
      | none => simpa [List.filterMap_cons, ha] using h1
      | some q =>
        simp only [List.filterMap_cons, ha]
        exact ((List.perm_cons q).2 h1).trans (List.Perm.swap _ _ _)

theorem clearLarge_none {a : Nat} : ∀ (ls : List Large), clearLarge a ls = none → a ∉ largeAddrs ls
  | [], _ => by simp [largeAddrs]
  | l :: ls, e => by
    rw [clearLarge] at e
    by_cases hn : l.alloc.map Region.addr = some a
    · rw [if_pos hn] at e; cases e
    · rw [if_neg hn, Option.map_eq_none_iff] at e
      have := clearLarge_none ls e
      unfold largeAddrs at this ⊢
      rw [List.filterMap_cons]
      cases ha : l.alloc.map Region.addr with
      | none => simpa [ha] using this
      | some x =>
        rw [ha] at hn
        simp only [List.mem_cons, not_or]
        exact ⟨fun h => hn (by rw [h]), this⟩

theorem largeAddrs_eq (ls : List Large) : largeAddrs ls = (ls.filterMap Large.alloc).map Region.addr := by
  simp [largeAddrs, List.map_filterMap]

/-! ## The pool's entries -/

/-- the large and clean-up entries of the pool -/
def nodes (p : Pool) : List Region := p.large.map (fun l => ⟨l.node, 16⟩) ++ p.cleanup.map (fun c => ⟨c.node, 24⟩)

/-- Invariant of pool and system for the client blocks `U`. -/
structure QInv (S : Nat) (ext : List Region) (p : Pool) (sys U : List Region) : Prop where
  core : Core S ext p.blocks (p.large.filterMap Large.alloc) sys (U ++ nodes p)
  cur : p.current < p.blocks.length
  max : p.max ≤ S - 64
  max24 : 24 ≤ p.max
  nin : ∀ r ∈ nodes p, InBlk p.blocks r

theorem QInv.psize {S ext p sys U} (h : QInv S ext p sys U) : p.psize = S := by
  obtain ⟨c, t, hc, _⟩ := h.core.hd
  have := (h.core.blk c (by rw [hc]; simp)).1
  simp [Pool.psize, hc, this]

/-- What an allocating function guarantees: `m` is its result. -/
structure Gives (S : Nat) (ext : List Region) (p : Pool) (U : List Region) (n : Nat) (p' : Pool) (sys' : List Region)
    (r : Option Nat) : Prop where
  clean : p'.cleanup = p.cleanup
  max : p'.max = p.max
  fail : r = none → QInv S ext p' sys' U
  ok : ∀ m, r = some m → QInv S ext p' sys' (⟨m, n⟩ :: U)

theorem nodes_congr {p p' : Pool} (h1 : p'.large = p.large) (h2 : p'.cleanup = p.cleanup) : nodes p' = nodes p := by
  simp [nodes, h1, h2]

theorem small_gives {S ext p sys U} (h : QInv S ext p sys U) {n : Nat} (hn : 0 < n) (hm : n ≤ p.max) (al : Bool) {o : Option Nat}
    (ho : Fresh sys S 16 o) {p' sys' r} (e : pallocSmall p sys n al o = (p', sys', r)) :
    Gives S ext p U n p' sys' r ∧ ∀ m, r = some m → (al = true → m % 8 = 0) ∧ InBlk p'.blocks ⟨m, n⟩ := by
  have hmax := h.max
  have hbig := h.core.big
  obtain ⟨h1, h2, h3, h4, h5⟩ := pallocSmall_core h.core h.cur hn (by omega) al h.psize ho e
  refine ⟨⟨h2, h3, ?_, ?_⟩, ?_⟩
  · intro hr
    obtain ⟨rfl, rfl⟩ := h4 hr
    exact h
  · intro m hr
    obtain ⟨c, cu, _, _, mono⟩ := h5 m hr
    exact ⟨by rw [h1, nodes_congr h1 h2]; exact c, cu, by omega, by have := h.max24; omega,
      fun r hr => mono r (h.nin r (by rwa [nodes_congr h1 h2] at hr))⟩
  · intro m hr
    obtain ⟨_, _, a, b, _⟩ := h5 m hr
    exact ⟨a, b⟩

theorem addLarge_gives {S ext p sys U} (h : QInv S ext p sys U) {r : Region} (hp : 0 < r.size) (hd : ∀ q ∈ sys, Disj r q)
    {o : Option Nat} (ho : Fresh (r :: sys) S 16 o) :
    ∃ p' sys' m, addLarge p (r :: sys) r o = some (p', sys', m) ∧ Gives S ext p U r.size p' sys' m ∧
      ∀ a, m = some a → a = r.addr := by
  have hbig := h.core.big
  have hc := h.core.addL hp hd
  unfold addLarge
  generalize he : pallocSmall p (r :: sys) 16 true o = t
  obtain ⟨p', sys', m⟩ := t
  obtain ⟨h1, h2, h3, h4, h5⟩ := pallocSmall_core hc h.cur (by omega) (by omega) true h.psize ho he
  cases m with
  | none =>
    obtain ⟨rfl, rfl⟩ := h4 rfl
    obtain ⟨s1, e1, hs1⟩ := sysFree_spec hc.sysd hc.sysp (r := r) (by simp)
    refine ⟨p', s1, none, by simp [e1], ⟨rfl, rfl, fun _ => ?_, fun m h => (by cases h)⟩, fun a h => (by cases h)⟩
    exact { h with core := h.core.perm_sys ((List.perm_cons _).1 hs1) }
  | some node =>
    obtain ⟨c, cu, _, inb, mono⟩ := h5 node rfl
    refine ⟨_, _, _, rfl, ⟨h2, h3, (fun h => (by cases h)), fun m hm => ?_⟩, fun a ha => by cases ha; rfl⟩
    cases hm
    refine ⟨?_, cu, ?_, ?_, ?_⟩
    · show Core S ext p'.blocks (r :: p'.large.filterMap Large.alloc) sys' _
      rw [h1]
      refine c.perm_R ?_
      simp only [nodes, List.map_cons, List.cons_append, h1, h2]
      refine (List.Perm.swap _ _ _).trans ((List.perm_cons _).2 ?_)
      exact List.perm_middle.symm
    · show p'.max ≤ S - 64; have := h.max; omega
    · show 24 ≤ p'.max; have := h.max24; omega
    · intro q hq
      simp only [nodes, List.map_cons, List.cons_append, h1, h2] at hq
      rcases List.mem_cons.1 hq with rfl | hq
      · exact inb
      · exact mono q (h.nin q hq)

theorem palloc_gives {S ext p sys U} (h : QInv S ext p sys U) {n : Nat} (hn : 0 < n) (al : Bool) {o1 o2 : Option Nat}
    (hf : if n ≤ p.max then Fresh sys p.psize 16 o1
      else Fresh sys n 16 o1 ∧ ∀ a, o1 = some a → Fresh (⟨a, n⟩ :: sys) p.psize 16 o2) :
    ∃ p' sys' r, palloc p sys n al o1 o2 = some (p', sys', r) ∧ Gives S ext p U n p' sys' r ∧
      (∀ m, r = some m → (al = true → m % 8 = 0) ∧ (n ≤ p.max → InBlk p'.blocks ⟨m, n⟩)) := by
  rw [h.psize] at hf
  unfold palloc
  by_cases hm : n ≤ p.max
  · rw [if_pos hm] at hf ⊢
    generalize he : pallocSmall p sys n al o1 = t
    obtain ⟨p', sys', r⟩ := t
    obtain ⟨h1, h2⟩ := small_gives h hn hm al hf he
    exact ⟨p', sys', r, rfl, h1, fun m hm => ⟨(h2 m hm).1, fun _ => (h2 m hm).2⟩⟩
  · rw [if_neg hm] at hf ⊢
    unfold pallocLarge
    cases o1 with
    | none => exact ⟨p, sys, none, rfl, ⟨rfl, rfl, fun _ => h, fun m h => (by cases h)⟩, fun m h => (by cases h)⟩
    | some a =>
      obtain ⟨hal, _, hd⟩ := hf.1 a rfl
      dsimp only
      cases hr : reuse ⟨a, n⟩ 0 p.large with
      | some ls =>
        obtain ⟨h1, h2⟩ := reuse_spec _ _ _ hr
        have hnodes : nodes { p with large := ls } = nodes p := by
          have := congrArg (List.map (fun n => (⟨n, 16⟩ : Region))) h2
          simp only [List.map_map] at this
          simp only [nodes]
          congr 1
        refine ⟨_, _, _, rfl, ⟨rfl, rfl, (fun h => (by cases h)), fun m hm => ?_⟩, fun m e => by cases e; exact ⟨fun _ => by omega, fun h => absurd h hm⟩⟩
        cases hm
        refine ⟨?_, h.cur, h.max, h.max24, ?_⟩
        · rw [hnodes]
          exact (h.core.addL (r := ⟨a, n⟩) hn hd).perm_L h1.symm
        · rw [hnodes]; exact h.nin
      | none =>
        obtain ⟨p', sys', m, e, g, ga⟩ := addLarge_gives h (r := ⟨a, n⟩) hn hd (hf.2 a rfl)
        refine ⟨p', sys', m, e, g, fun m' h' => ⟨fun _ => ?_, fun h => absurd h hm⟩⟩
        rw [ga m' h']; show a % 8 = 0; omega

end Kasync.Pool
