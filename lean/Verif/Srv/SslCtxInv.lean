import Verif.Srv.SslCtx

/-! Reference accounting and invariant for `Srv/SslCtx`. -/

namespace Kasync.SslCtx

def ind (p : Prop) [Decidable p] : Nat := if p then 1 else 0

/-- A configuring call that overlaps another one, a listener that is freed while an update of its context is pending, or a direct update
(server not started) while the listener makes a connection. -/
def Disc (s : St) : Op → Prop
  | .setBegin _ => s.lis = .idle
  | .bindBegin _ _ => s.lis = .idle
  | .lisInit => s.set = .idle
  | .setVisit => s.start = true ∨ ∀ c i rest, s.set = .visit c (i :: rest) → s.stage i = .idle
  | .dFree i => ∀ e ∈ s.posted, e.1 ≠ i
  | _ => True

/-- The four tables of counts agree with `H` holders of the counted context and `K` users of the `SSL_CTX`. -/
structure Core (next : Nat) (r sr f sf H K : Nat → Nat) : Prop where
  rf : ∀ c, r c = H c
  sl : ∀ c, sr c = ind (H c > 0) + K c
  fr : ∀ c, f c = ind (c < next ∧ H c = 0)
  sf : ∀ c, sf c = ind (c < next ∧ sr c = 0)
  un : ∀ c, next ≤ c → H c = 0 ∧ K c = 0

def plus (H : Nat → Nat) (c : Nat) : Nat → Nat := fun d => H d + ind (d = c)

def plusO (H : Nat → Nat) (p : Option Nat) : Nat → Nat := fun d => H d + ind (p = some d)

theorem upd_same {α : Type} (f : Nat → α) (i : Nat) (v : α) : upd f i v i = v := by simp [upd]
theorem upd_ne {α : Type} (f : Nat → α) {i j : Nat} (v : α) (h : j ≠ i) : upd f i v j = f j := by simp [upd, h]

theorem release_core {s : St} {c : Nat} {H K : Nat → Nat} (h : Core s.next s.refs s.sslRefs s.freed s.sslFreed (plus H c) K) :
    ∃ r sr f sf, release s c = .ok { s with refs := r, sslRefs := sr, freed := f, sslFreed := sf } ∧ Core s.next r sr f sf H K := by
  obtain ⟨h1, h2, h3, h4, h5⟩ := h
  have hc := h1 c
  simp only [plus, ind, if_true] at hc
  have hs := h2 c
  simp only [plus, ind, if_true, gt_iff_lt, Nat.zero_lt_succ] at hs
  have hn : c < s.next := by
    rcases Nat.lt_or_ge c s.next with h | h
    · exact h
    · have := (h5 c h).1; simp [plus, ind] at this
  unfold release
  rw [if_neg (by omega)]
  by_cases hr : s.refs c = 1
  · rw [if_pos hr, if_neg (by omega)]
    refine ⟨_, _, _, _, rfl, ?_⟩
    constructor <;> intro d
    all_goals have a1 := h1 d; have a2 := h2 d; have a3 := h3 d; have a4 := h4 d; have a5 := h5 d
    all_goals by_cases hd : d = c
    all_goals (try subst hd)
    all_goals simp_all [plus, ind, upd, sslDrop]
    all_goals grind
  · rw [if_neg hr]
    refine ⟨_, _, _, _, rfl, ?_⟩
    constructor <;> intro d
    all_goals have a1 := h1 d; have a2 := h2 d; have a3 := h3 d; have a4 := h4 d; have a5 := h5 d
    all_goals by_cases hd : d = c
    all_goals (try subst hd)
    all_goals simp_all [plus, ind, upd, sslDrop]
    all_goals grind

theorem plusO_none (H : Nat → Nat) : plusO H none = H := by funext d; simp [plusO, ind]
theorem plusO_some (H : Nat → Nat) (c : Nat) : plusO H (some c) = plus H c := by
  funext d; simp only [plusO, plus, ind, Option.some.injEq]; congr 1; simp [eq_comm]

theorem releaseOpt_core {s : St} {p : Option Nat} {H K : Nat → Nat} (h : Core s.next s.refs s.sslRefs s.freed s.sslFreed (plusO H p) K) :
    ∃ r sr f sf, releaseOpt s p = .ok { s with refs := r, sslRefs := sr, freed := f, sslFreed := sf } ∧ Core s.next r sr f sf H K := by
  cases p with
  | none => rw [plusO_none] at h; exact ⟨_, _, _, _, rfl, h⟩
  | some c => rw [plusO_some] at h; exact release_core h

theorem addRefOpt_core {s : St} {p : Option Nat} {H K : Nat → Nat} (h : Core s.next s.refs s.sslRefs s.freed s.sslFreed H K)
    (hp : ∀ c, p = some c → 0 < H c) :
    ∃ r, addRefOpt s p = .ok { s with refs := r } ∧ Core s.next r s.sslRefs s.freed s.sslFreed (plusO H p) K := by
  cases p with
  | none => rw [plusO_none]; exact ⟨_, rfl, h⟩
  | some c =>
    obtain ⟨h1, h2, h3, h4, h5⟩ := h
    have h0 := hp c rfl
    simp only [addRefOpt]
    rw [if_neg (by have := h1 c; omega)]
    refine ⟨_, rfl, ?_⟩
    rw [plusO_some]
    constructor <;> intro d
    all_goals have a1 := h1 d; have a2 := h2 d; have a3 := h3 d; have a4 := h4 d; have a5 := h5 d
    all_goals by_cases hd : d = c
    all_goals (try subst hd)
    all_goals simp_all [plus, ind, upd]
    all_goals grind

theorem sslDrop_core {s : St} {c : Nat} {H K : Nat → Nat} (h : Core s.next s.refs s.sslRefs s.freed s.sslFreed H (plus K c)) :
    s.sslRefs c ≠ 0 ∧
      Core s.next s.refs (sslDrop s c).sslRefs s.freed (sslDrop s c).sslFreed H K := by
  obtain ⟨h1, h2, h3, h4, h5⟩ := h
  constructor
  · have := h2 c; simp [plus, ind] at this; omega
  · have hn : c < s.next := by
      rcases Nat.lt_or_ge c s.next with h | h
      · exact h
      · have := (h5 c h).2; simp [plus, ind] at this
    constructor <;> intro d
    all_goals have a1 := h1 d; have a2 := h2 d; have a3 := h3 d; have a4 := h4 d; have a5 := h5 d
    all_goals by_cases hd : d = c
    all_goals (try subst hd)
    all_goals simp_all [plus, ind, upd, sslDrop]
    all_goals grind

/-! ## Counting -/

theorem countP_upd_notMem {l : List Nat} {i : Nat} (h : i ∉ l) (f : Nat → Option Nat) (v : Option Nat) (c : Nat) :
    l.countP (fun j => upd f i v j == some c) = l.countP (fun j => f j == some c) := by
  apply List.countP_congr
  intro j hj
  rw [upd_ne]
  intro he; exact h (he ▸ hj)

theorem countP_upd {l : List Nat} {i : Nat} (hn : l.Nodup) (h : i ∈ l) (f : Nat → Option Nat) (v : Option Nat) (c : Nat) :
    l.countP (fun j => upd f i v j == some c) + ind (f i = some c) = l.countP (fun j => f j == some c) + ind (v = some c) := by
  induction l with
  | nil => cases h
  | cons a l ih =>
    rw [List.nodup_cons] at hn
    rw [List.countP_cons, List.countP_cons]
    by_cases ha : a = i
    · subst ha
      rw [countP_upd_notMem hn.1, upd_same]
      simp only [ind, beq_iff_eq]
      omega
    · have hm : i ∈ l := by
        rcases List.mem_cons.1 h with h | h
        · exact absurd h.symm ha
        · exact h
      have := ih hn.2 hm
      rw [upd_ne _ _ ha]
      omega

theorem countP_erase {l : List Nat} {i : Nat} (h : i ∈ l) (p : Nat → Bool) :
    (l.erase i).countP p + (if p i then 1 else 0) = l.countP p := by
  have := (List.perm_cons_erase h).countP_eq p
  rw [this, List.countP_cons]

theorem countP_eraseIdx {α : Type} {l : List α} {k : Nat} {e : α} (h : l[k]? = some e) (p : α → Bool) :
    (l.eraseIdx k).countP p + (if p e then 1 else 0) = l.countP p := by
  induction l generalizing k with
  | nil => simp at h
  | cons a l ih =>
    cases k with
    | zero => simp at h; subst h; simp [List.countP_cons]
    | succ k =>
      simp only [List.getElem?_cons_succ] at h
      simp only [List.eraseIdx_cons_succ, List.countP_cons]
      have := ih h
      omega

/-! ## Invariant -/

/-- the reference of the server object, or of the call that is replacing its context -/
def srvHold (s : St) (c : Nat) : Nat :=
  match s.set with
  | .assign p => ind (p = some c)
  | _ => ind (s.srvFreed = 0 ∧ s.sctx = some c)

def liveHold (s : St) (c : Nat) : Nat := s.live.countP (fun i => s.lctx i == some c)
def postHold (s : St) (c : Nat) : Nat := s.posted.countP (fun e => e.2 == some c)
def users (s : St) (c : Nat) : Nat := s.conns.countP (fun e => e.2 == some c)
def holders (s : St) (c : Nat) : Nat := s.ext c + srvHold s c + liveHold s c + postHold s c

structure Shape (s : St) : Prop where
  srv : s.srvRefs = s.owners + s.conns.length + s.lrefs.length
  frz : s.srvFreed = ind (s.srvRefs = 0)
  own : calls s ≤ s.owners
  ndL : s.lst.Nodup
  ndV : s.live.Nodup
  ndR : s.lrefs.Nodup
  mL : ∀ i, i ∈ s.lst ↔ s.stage i = .idle ∨ ∃ p, s.stage i = .acc p
  mV : ∀ i, i ∈ s.live ↔ (s.stage i ≠ .gone ∧ s.stage i ≠ .init) ∨ s.lis = .append i
  mR : ∀ i, i ∈ s.lrefs ↔ s.stage i ≠ .gone ∧ s.stage i ≠ .rel
  acc : ∀ i p, s.stage i = .acc p → s.lctx i = p
  ini : ∀ i, s.stage i = .init ↔ (s.lis = .append i ∨ ∃ p, s.lis = .ref i p)
  lref : ∀ i p, s.lis = .ref i p → s.lctx i = p ∧ p = s.sctx
  excl : s.set = .idle ∨ s.lis = .idle
  fresh : ∀ i, s.nextL ≤ i → s.stage i = .gone
  lck : ∀ c, s.set = .lock c → s.sctx = c
  vis : ∀ c rest, s.set = .visit c rest → s.sctx = c ∧ ∀ i ∈ rest, i ∈ s.lst
  pst : ∀ e ∈ s.posted, s.stage e.1 ≠ .gone

structure Inv (s : St) : Prop where
  core : Core s.next s.refs s.sslRefs s.freed s.sslFreed (holders s) (users s)
  shape : Shape s

theorem inv_init : Inv init := by
  constructor
  · constructor <;> intro c <;> simp [init, holders, srvHold, liveHold, postHold, users, ind]
  · constructor <;> simp [init, ind, calls]

def Good (s : St) (r : Res St) : Prop := r = .disabled ∨ ∃ s', r = .ok s' ∧ Inv s'

theorem Core.congr {n : Nat} {r sr f sf H K H' K' : Nat → Nat} (h : Core n r sr f sf H K) (hH : ∀ c, H c = H' c) (hK : ∀ c, K c = K' c) :
    Core n r sr f sf H' K' := by
  have : H = H' := funext hH
  have : K = K' := funext hK
  subst_vars; exact h

theorem touch_ok {s : St} {r : Res St} (h : s.srvFreed = 0) : touch s r = r := by simp [touch, h]

theorem srv_alive {s : St} (h : Shape s) (ho : s.owners > 0 ∨ s.conns ≠ [] ∨ s.lrefs ≠ []) : s.srvFreed = 0 := by
  rw [h.frz, h.srv, ind, if_neg]
  intro he
  rcases ho with ho | ho | ho
  · omega
  · have := List.length_pos_iff.2 ho; omega
  · have := List.length_pos_iff.2 ho; omega

theorem owners_pos {s : St} (h : s.owners > calls s) : s.owners > 0 := by omega

end Kasync.SslCtx
