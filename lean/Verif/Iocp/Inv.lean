import Verif.Iocp.Model

/-! # Completion port: the rules of use and the invariant -/

namespace Kasync.Iocp

/-- Request `id` was made and its callback has not been called. -/
def Outstanding (s : St) (id : Nat) : Prop := id < s.next ∧ id ∉ s.done.map Prod.fst

/-- A request of direction `d` is outstanding. -/
def Busy (s : St) (d : Dir) : Prop := ∃ id, Outstanding s id ∧ s.req id = d

/-- The rules a caller follows: a selectable is used only while it exists and according to its kind, it is bound to the selector
once and first, at most one request for each direction (for a file: one request), `connect` with nothing outstanding, and nothing
outstanding at its release.  A datagram socket has a `kudp_extend` (see the findings). -/
def Client (s : St) : Op → Prop
  | .bind => s.alive = true ∧ s.bound = false
  | .read _ => s.alive = true ∧ s.bound = true ∧ s.kind = .conn ∧ ¬ Busy s .r
  | .recvFrom => False
  | .write _ | .sendfile _ => s.alive = true ∧ s.bound = true ∧ s.kind = .conn ∧ ¬ Busy s .w
  | .connect _ => s.alive = true ∧ s.bound = true ∧ s.kind = .conn ∧ ¬ Busy s .r ∧ ¬ Busy s .w
  | .aioRead _ | .aioWrite _ => s.alive = true ∧ s.bound = true ∧ s.kind = .file ∧ ¬ Busy s .r ∧ ¬ Busy s .w
  | .accept _ => s.alive = true ∧ s.bound = true ∧ s.kind = .server ∧ ¬ Busy s .r
  | .nextRead => s.alive = true ∧ s.bound = true ∧ s.kind = .conn ∧ ¬ Busy s .r
  | .nextWrite => s.alive = true ∧ s.bound = true ∧ s.kind = .conn ∧ ¬ Busy s .w
  | .destroy => s.alive = true ∧ ¬ Busy s .r ∧ ¬ Busy s .w
  | _ => True

/-- States after any history of the caller, the kernel, other threads and the selector that keeps the rules. -/
inductive Hist (k : Kind) : St → Prop where
  | init : Hist k { kind := k }
  | step {s s' : St} (op : Op) : Hist k s → Client s op → step s op = .ok s' → Hist k s'

/-- The packets of one direction in the port. -/
def pk (d : Dir) : List Pkt → List (Nat × Int)
  | [] => []
  | .io d' id ok n :: p => if d' = d then (id, if ok then (n : Int) else -1) :: pk d p else pk d p
  | .notice .. :: p => pk d p

/-- The notices in the port. -/
def nts : List Pkt → List (Nat × Int)
  | [] => []
  | .io .. :: p => nts p
  | .notice id got :: p => (id, got) :: nts p

@[simp] theorem pk_append (d : Dir) (p q : List Pkt) : pk d (p ++ q) = pk d p ++ pk d q := by
  induction p with
  | nil => rfl
  | cons x p ih => cases x <;> simp only [List.cons_append, pk, ih] <;> split <;> rfl

@[simp] theorem nts_append (p q : List Pkt) : nts (p ++ q) = nts p ++ nts q := by
  induction p with
  | nil => rfl
  | cons x p ih => cases x <;> simp [nts, ih]

/-- One direction: the flag, STF_xREADY2, the kernel, the port agree about the request `id`. -/
structure Side (flag r2 : Bool) (id : Nat) (pend : Option Nat) (q : List (Nat × Int)) (outcome : List (Nat × Int)) : Prop where
  off : flag = false → r2 = false ∧ pend = none ∧ q = []
  on : flag = true →
    (r2 = true ∧ pend = none ∧ q = [] ∧ id ∉ outcome.map Prod.fst) ∨
    (r2 = false ∧ pend = some id ∧ q = [] ∧ id ∉ outcome.map Prod.fst) ∨
    (r2 = false ∧ pend = none ∧ ∃ v, q = [(id, v)] ∧ (id, v) ∈ outcome)

structure Inv (s : St) : Prop where
  sideR : Side s.read s.rready2 s.rid s.pendR (pk .r s.port) s.outcome
  sideW : Side s.write s.wready2 s.wid s.pendW (pk .w s.port) s.outcome
  out_r : s.read = true → Outstanding s s.rid ∧ s.req s.rid = .r
  out_w : s.write = true → Outstanding s s.wid ∧ s.req s.wid = .w
  acct : ∀ i, Outstanding s i → (s.read = true ∧ i = s.rid) ∨ (s.write = true ∧ i = s.wid)
  done_lt : ∀ i ∈ s.done.map Prod.fst, i < s.next
  done_nodup : (s.done.map Prod.fst).Nodup
  out_lt : ∀ i ∈ s.outcome.map Prod.fst, i < s.next
  out_nodup : (s.outcome.map Prod.fst).Nodup
  done_out : ∀ p ∈ s.done, p ∈ s.outcome
  dead : s.alive = false → s.read = false ∧ s.write = false ∧ s.loc = .none ∧ s.asock = none
  bnd : s.bound = false → s.next = 0
  dng : s.dang = false
  listed : s.loc ≠ .none → s.read = true ∨ s.write = true
  conn : s.kind ≠ .conn → s.loc = .none ∧ s.cur = none ∧ s.rready2 = false ∧ s.wready2 = false
  serv : s.kind = .server → s.write = false
  filed : s.kind = .file → s.read = true → s.write = false
  sock : (∃ k, s.asock = some k) ↔ (s.kind = .server ∧ s.read = true)
  r2 : s.rready2 = true → s.loc = .ready ∨ ∃ k, s.cur = some k ∧ k.todoR = true
  w2 : s.wready2 = true → s.loc = .ready
  todo : ∀ k, s.cur = some k → k.todoR = true → s.rready2 = true ∧ k.rd = true
  cur_rd : ∀ k, s.cur = some k → k.rd = true → s.read = true
  cur_wr : ∀ k, s.cur = some k → k.wr = true → s.write = true
  place_r : s.kind = .conn → s.read = true → s.loc ≠ .none ∨ s.shut = true ∨ ∃ k, s.cur = some k ∧ k.rd = true
  place_w : s.kind = .conn → s.write = true → s.loc ≠ .none ∨ s.shut = true ∨ ∃ k, s.cur = some k ∧ k.wr = true
  notices : s.posted = s.called ++ nts s.port
  socks : (s.closed ++ s.given ++ s.asock.toList).Nodup ∧ ∀ k, k ∈ s.closed ++ s.given ++ s.asock.toList ↔ k < s.nsock
  cur_loc : ∀ k, s.cur = some k → k.todoR = true → s.loc ≠ .none → s.write = true

theorem inv_init (k : Kind) : Inv { kind := k } := by
  constructor <;> first | (simp [Outstanding, pk, nts]; done) | (constructor <;> simp [pk])

namespace Inv
variable {s : St} (h : Inv s)
include h

theorem busyR : Busy s .r ↔ s.read = true := by
  constructor
  · rintro ⟨id, ho, hr⟩
    rcases h.acct id ho with ⟨a, -⟩ | ⟨a, e⟩
    · exact a
    · rw [e, (h.out_w a).2] at hr; cases hr
  · exact fun e => ⟨_, h.out_r e⟩

theorem busyW : Busy s .w ↔ s.write = true := by
  constructor
  · rintro ⟨id, ho, hr⟩
    rcases h.acct id ho with ⟨a, e⟩ | ⟨a, -⟩
    · rw [e, (h.out_r a).2] at hr; cases hr
    · exact a
  · exact fun e => ⟨_, h.out_w e⟩

end Inv

end Kasync.Iocp
