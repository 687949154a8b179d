import Verif.MDbg.Model

/-! # Debugging allocator: the environment, the rules of use and the invariants -/

namespace Kasync.MDbg

/-- The C library may hand out `n` bytes at `a`: aligned, and apart from every block it has given out. -/
def Fresh (libc : Nat → Option Nat) (a n : Nat) : Prop :=
  0 < a ∧ a % 16 = 0 ∧ a + n < 2 ^ 64 ∧ ∀ b m, libc b = some m → a + n < b ∨ b + m < a

/-- What the C library does. -/
def Env (s : St) : Op → Prop
  | .alloc _ q node real _ _ => Fresh s.libc node nodeSize ∧ Fresh (upd s.libc node (some nodeSize)) real (q.size + 16)
  | .unlink t b _ => ∀ p r, s.thr t = some p → s.tab (.var t) = [r] → find s p.old = none →
      Fresh (upd (upd (upd s.libc r.real none) r.node none) p.old none) b p.size
  | .plain q b _ => Fresh (if q.old = 0 then s.libc else upd s.libc q.old none) b q.size
  | _ => True

/-- The program has the block at `p` and did not give it to a `realloc` that is still under way. -/
def Has (s : St) (p : Nat) : Prop := ∃ e, s.own p = some e ∧ e.busy = none

/-- The program writes into a block it has. -/
def InBounds (s : St) (x : Nat) : Prop := ∃ p e, s.own p = some e ∧ e.busy = none ∧ p ≤ x ∧ x < p + e.n

/-- The rules of `malloc` and `free`: start the hook once, free and resize only what one has, sizes that fit; while the hook is off (a dump
is under way) a block allocated with the hook on is not resized.  `W`: the addresses the program may write to. -/
def Client (W : St → Nat → Prop) (s : St) : Op → Prop
  | .start => s.ever = false
  | .alloc _ q _ _ _ _ => q.want + 16 < 2 ^ 64 ∧ (q.old = 0 ∨ Has s q.old)
  | .plain q _ _ => q.want < 2 ^ 64 ∧ (q.old = 0 ∨ ∃ e, s.own q.old = some e ∧ e.busy = none ∧ e.trk = false)
  | .free p => p = 0 ∨ Has s p
  | .write x _ => W s x
  | _ => True

/-- A faulty program: it may also write up to eight bytes before or behind a block, and into blocks it has freed while they are kept. -/
def Sloppy (s : St) (x : Nat) : Prop :=
  InBounds s x ∨ (∃ p e, s.own p = some e ∧ e.busy = none ∧ e.trk = true ∧ p ≤ x + 8 ∧ x < p + e.n + 8) ∨
  ∃ i r, (r ∈ s.tab (.d1 i) ∨ r ∈ s.tab (.d2 i)) ∧ r.real ≤ x ∧ x < r.real + r.size + 16

inductive Hist (W : St → Nat → Prop) (chk : Bool) : St → Prop where
  | init (m : Nat → UInt8) : Hist W chk { chk := chk, mem := m }
  | step {s s' : St} (op : Op) : Hist W chk s → Client W s op → Env s op → step s op = .ok s' → Hist W chk s'

structure SInv (s : St) : Prop where
  apart : ∀ a b n m, s.libc a = some n → s.libc b = some m → a ≠ b → a + n < b ∨ b + m < a
  pos : ∀ a n, s.libc a = some n → 0 < a
  recs : ∀ pl r, r ∈ s.tab pl → s.libc r.node = some nodeSize ∧ s.libc r.real = some (r.size + 16)
  uniq : ∀ pl pl' r r', r ∈ s.tab pl → r' ∈ s.tab pl' → (r.real = r'.real ∨ r.node = r'.node) → pl = pl' ∧ r = r'
  sep : ∀ pl pl' r r', r ∈ s.tab pl → r' ∈ s.tab pl' → r.node ≠ r'.real
  nd : ∀ pl, (s.tab pl).Nodup
  home : ∀ i r, r ∈ s.tab (.live i) → hash r.user = i
  var0 : ∀ t, s.thr t = none → s.tab (.var t) = []
  var1 : ∀ t p, s.thr t = some p → ∃ r, s.tab (.var t) = [r] ∧ r.size = p.size
  own_t : ∀ p e, s.own p = some e → e.trk = true → ∃ r ∈ s.tab (.live (hash p)), r.user = p ∧ r.size = e.n
  own_u : ∀ p e, s.own p = some e → e.trk = false → s.libc p = some e.n ∧ ∀ pl r, r ∈ s.tab pl → r.node ≠ p ∧ r.real ≠ p
  busy : ∀ p e t, s.own p = some e → e.busy = some t → ∃ q, s.thr t = some q ∧ q.old = p
  old : ∀ t q, s.thr t = some q → q.old ≠ 0 → ∃ e, s.own q.old = some e ∧ e.busy = some t ∧ q.kn = e.n
  live_own : ∀ i r, r ∈ s.tab (.live i) → ∃ e, s.own r.user = some e ∧ e.trk = true
  all : ∀ a n, s.libc a = some n → (∃ pl r, r ∈ s.tab pl ∧ (a = r.node ∨ a = r.real)) ∨ ∃ e, s.own a = some e ∧ e.trk = false
  nochk : s.chk = false → ∀ i, s.tab (.d1 i) = [] ∧ s.tab (.d2 i) = []
  ever0 : s.ever = false → (∀ pl, s.tab pl = []) ∧ s.started = false ∧ ∀ t, s.saved t ≠ some true
  zero : ∀ t p, s.thr t = some p → p.zero = true → p.old = 0 ∧ p.kn = 0

theorem sinv_init (c : Bool) (m : Nat → UInt8) : SInv { chk := c, mem := m } := by
  constructor <;> simp

theorem find_some {s : St} {p : Nat} {h : Rec} (e : find s p = some h) : h ∈ s.tab (.live (hash p)) ∧ h.user = p := by
  unfold find at e
  exact ⟨List.mem_of_find?_eq_some e, by simpa using List.find?_some e⟩

theorem find_none {s : St} {p : Nat} (e : find s p = none) : ∀ r ∈ s.tab (.live (hash p)), r.user ≠ p := by
  unfold find at e
  simpa using e

namespace SInv
variable {s : St} (h : SInv s)
include h

/-- The block of a record not in a chain belongs to nobody. -/
theorem not_own {pl : Place} {r : Rec} (hr : r ∈ s.tab pl) (hp : ∀ i, pl ≠ .live i) : s.own r.user = none := by
  cases e : s.own r.user with
  | none => rfl
  | some x =>
    cases ht : x.trk
    · have h1 := (h.own_u _ _ e ht).1
      have h2 := (h.recs _ _ hr).2
      have := h.apart _ _ _ _ h1 h2 (by unfold Rec.user; omega)
      unfold Rec.user at this
      omega
    · obtain ⟨r', hr', e1, -⟩ := h.own_t _ _ e ht
      have := (h.uniq _ _ _ _ hr hr' (.inl (by unfold Rec.user at e1; omega))).1
      exact absurd this (hp _)

/-- A fresh block belongs to nobody. -/
theorem fresh_own {b n : Nat} (hf : ∀ a m, s.libc a = some m → b + n < a ∨ a + m < b) : s.own b = none := by
  cases e : s.own b with
  | none => rfl
  | some x =>
    cases ht : x.trk
    · have h1 := (h.own_u _ _ e ht).1
      have := hf _ _ h1
      omega
    · obtain ⟨r', hr', e1, -⟩ := h.own_t _ _ e ht
      have := hf _ _ (h.recs _ _ hr').2
      unfold Rec.user at e1
      omega

theorem own_pos {p : Nat} {e : Ent} (he : s.own p = some e) : p ≠ 0 := by
  cases ht : e.trk
  · have := h.pos _ _ (h.own_u _ _ he ht).1; omega
  · obtain ⟨r', -, e1, -⟩ := h.own_t _ _ he ht
    unfold Rec.user at e1
    omega

theorem find_own {p : Nat} {r : Rec} (e : find s p = some r) : ∃ x, s.own p = some x ∧ x.trk = true ∧ r.size = x.n := by
  obtain ⟨a, b⟩ := find_some e
  obtain ⟨x, hx, ht⟩ := h.live_own _ _ a
  rw [b] at hx
  obtain ⟨r', hr', e1, e2⟩ := h.own_t _ _ hx ht
  have := (h.uniq _ _ _ _ a hr' (.inl (by unfold Rec.user at b e1; omega))).2
  exact ⟨x, hx, ht, by rw [this, e2]⟩

theorem find_untracked {p : Nat} {x : Ent} (e : find s p = none) (hx : s.own p = some x) : x.trk = false := by
  cases ht : x.trk
  · rfl
  · obtain ⟨r, hr, e1, -⟩ := h.own_t _ _ hx ht
    exact absurd e1 (find_none e r hr)

end SInv

end Kasync.MDbg
