/-!
# Model of the reference counted string, include/kstring.h:24-62 and include/kfeature.h:105-110

Any number of threads share one `kgl_ref_str_t`.  Atomic operations on `ref` (include/katom.h) are the atomic steps;
`kstring_release` is four of them: the read inside the assertion, the decrement, and the two `xfree` calls.
A reference is owned by a thread; `holders` lists the owners, one entry for each reference owned.  Steps touching
freed memory are undefined behaviour (`ub`), the failing assertion is `abort`.  A client may do only what its
references allow: this is the guard of each step, and an operation whose guard fails is `refused` (it is not an
execution of the code but of the specification of its use).
Not modelled: `xmemory_new` returning NULL (the code dereferences it, as everywhere in this code base).
-/

namespace Kasync.Str

abbrev Bytes := List UInt8

/-- `strndup`, to which `kgl_strndup` expands on Linux (include/kforwin32.h:139): the bytes before the first NUL,
at most `n`.  (`src` is the memory from `str` on.)  The result has a NUL behind it. -/
def strndup : Bytes → Nat → Bytes
  | _, 0 => []
  | [], _ + 1 => []
  | c :: cs, n + 1 => if c = 0 then [] else c :: strndup cs n

/-- `strlen` of the memory from `str` on. -/
def strlen : Bytes → Nat
  | [] => 0
  | c :: cs => if c = 0 then 0 else strlen cs + 1

/-- `kgl_ref_str_t` (include/kfeature.h:105-110) with ghost bookkeeping: which threads own references
(`holders`), which are between the assertion and the decrement of a release (`checked`), which are about to free
the data (`freeing`) or the structure (`freeing2`); how often each block has been freed. -/
structure St where
  /-- `ref`, an unsigned 32 bit counter -/
  ref : Nat
  /-- the bytes `data` points to, without the NUL behind them -/
  data : Bytes
  /-- `len`, 32 bits -/
  len : Nat
  holders : List Nat
  checked : List Nat := []
  freeing : List Nat := []
  freeing2 : List Nat := []
  dataFreed : Nat := 0
  freed : Nat := 0
  deriving Repr, DecidableEq

inductive Res (α : Type) where
  | ok (s : α)
  | ub
  | abort
  | refused
  deriving Repr, DecidableEq

/-- `convert_refs_string`, include/kstring.h:24-30, by thread `t`: `ref` 1, `len` cut to 32 bits. -/
def convertRefsString (t : Nat) (data : Bytes) (len : Nat) : St :=
  { ref := 1, data := data, len := len % 4294967296, holders := [t] }

/-- `kstring_from`, include/kstring.h:53-59, of a non-NULL pointer. -/
def kstringFrom (t : Nat) (str : Bytes) : St := convertRefsString t (strndup str (strlen str)) (strlen str)

/-- `kstring_from2`, include/kstring.h:60-62. -/
def kstringFrom2 (t : Nat) (str : Bytes) (len : Nat) : St := convertRefsString t (strndup str len) len

/-- What a thread can do.  `give` hands a reference over to another thread (no code runs). -/
inductive Op where
  | refs (t : Nat)
  | give (t u : Nat)
  | getRef (t : Nat)
  | read (t : Nat)
  | relCheck (t : Nat)
  | relDec (t : Nat)
  | relFreeData (t : Nat)
  | relFree (t : Nat)
  deriving Repr, DecidableEq

/-- Read access to the structure. -/
def touch (s : St) (r : Res St) : Res St := if s.freed = 0 then r else .ub

/-- One atomic step. -/
def step (s : St) : Op → Res St
  /- `kstring_refs`, include/kstring.h:34-40: one atomic increment -/
  | .refs t =>
    if t ∈ s.holders then
      touch s (.ok { s with ref := (s.ref + 1) % 4294967296, holders := t :: s.holders })
    else .refused
  | .give t u =>
    if t ∈ s.holders then .ok { s with holders := u :: s.holders.erase t } else .refused
  /- `kstring_get_ref`, include/kstring.h:31-33 -/
  | .getRef t => if t ∈ s.holders then touch s (.ok s) else .refused
  /- reading the bytes through `s->data`, `s->len` -/
  | .read t =>
    if t ∈ s.holders then touch s (if s.dataFreed = 0 then .ok s else .ub) else .refused
  /- `kstring_release`, include/kstring.h:42-46: the assertion -/
  | .relCheck t =>
    if t ∈ s.holders then
      touch s (if s.ref < 0xfffffff then
        .ok { s with holders := s.holders.erase t, checked := t :: s.checked } else .abort)
    else .refused
  /- include/kstring.h:47: the decrement and the test for 0 -/
  | .relDec t =>
    if t ∈ s.checked then
      touch s (
        let r := (s.ref + 4294967295) % 4294967296
        .ok { s with ref := r, checked := s.checked.erase t, freeing := if r = 0 then t :: s.freeing else s.freeing })
    else .refused
  /- include/kstring.h:48-50 -/
  | .relFreeData t =>
    if t ∈ s.freeing then
      touch s (if s.dataFreed = 0 then
        .ok { s with dataFreed := s.dataFreed + 1, freeing := s.freeing.erase t, freeing2 := t :: s.freeing2 }
        else .ub)
    else .refused
  /- include/kstring.h:51 -/
  | .relFree t =>
    if t ∈ s.freeing2 then
      (if s.freed = 0 then .ok { s with freed := s.freed + 1, freeing2 := s.freeing2.erase t } else .ub)
    else .refused

/-- A schedule: refused operations do not happen and are skipped. -/
def run (s : St) : List Op → Res St
  | [] => .ok s
  | o :: os =>
    match step s o with
    | .ok s' => run s' os
    | .refused => run s os
    | .ub => .ub
    | .abort => .abort

end Kasync.Str
