import Verif.Common

/-!
# File access by worker threads (KF_ASYNC_WORKER)

src/kasync_file.c:12-71 with src/kkqueue_selector.c:330-391 (src/kepoll_selector.c:424-430, 470-474 is the same), the callback of
fibers src/kfiber.c:566-579 and the calls of fibers src/kfiber.c:583-616.  KF_ASYNC_WORKER is defined on macOS (include/kfile.h:8-10).

An operation is a job of the worker pool (at most `maxW` threads, first in first out; the pool itself with its locks and links is
`Verif.Thr.Worker`).  A worker reads `kiocb` and the offset of the file when it does the system call, and `e[op]` of the file when it
posts the result to the selector, which calls the callback later (`kgl_selector_module.next`, `Verif.Sel.Notice`).

Simplifications: a thread of the pool can always be started (C28 shows what happens otherwise); no direct IO (the
macros of include/kasync_file.h:84-89); offsets and lengths are unbounded; `length` is not negative; files opened for appending are
not modelled; the notices of a selector may be delivered in any order.
-/

namespace Kasync.WFile

abbrev Byte := Nat

/-- `kf_aio_cmd`, include/kasync_file.h:16-20 -/
inductive Cmd where
  | read | write
  deriving Repr, DecidableEq

/-- A file: `kf_aiocb` (include/kasync_file.h:22-27), `st.offset`, the operation whose callback `e[OP_READ]` / `e[OP_WRITE]` holds,
and the contents on disk. -/
structure File where
  content : List Byte := []
  offset : Int := 0
  cmd : Cmd := .read
  buf : Nat := 0
  len : Nat := 0
  eRead : Nat := 0
  eWrite : Nat := 0
  -- ghosts: where the program last sought to, and the bytes it has been told of since
  base : Int := 0
  got : List Byte := []
  /-- ghost: the contents at the beginning -/
  orig : List Byte := []

/-- Where a job is: in the queue; with a worker before the system call; after it; posted to the selector with the callback of an
operation. -/
inductive Stage where
  | queued
  | taken
  | done (cmd : Cmd) (ret : Int)
  | posted (op : Nat) (ret : Int)
  deriving Repr, DecidableEq

/-- `kasync_worker_param` with `data` the file; `op` (ghost) the operation that submitted it. -/
structure Job where
  file : Nat
  op : Nat
  stage : Stage := .queued
  deriving Repr, DecidableEq

/-- What the program asked for: the arguments, the offset and the contents of the buffer at that time. -/
structure Ask where
  file : Nat
  cmd : Cmd
  buf : Nat
  len : Nat
  off : Int
  src : List Byte
  deriving Repr, DecidableEq

/-- A system call made: for which job, on what, its answer, the bytes moved, the file's contents before. -/
structure Perf where
  op : Nat
  file : Nat
  cmd : Cmd
  buf : Nat
  len : Nat
  off : Int
  ret : Int
  data : List Byte
  before : List Byte
  deriving Repr, DecidableEq

structure St where
  fl : Nat → File := fun _ => {}
  mem : Nat → Byte := fun _ => 0
  jobs : List Job := []
  /-- `worker->worker`, and the threads at the top of their loop -/
  nworker : Nat := 0
  idle : Nat := 0
  -- ghosts
  asks : List Ask := []
  perf : List Perf := []
  /-- callbacks called: whose, with what -/
  told : List (Nat × Int) := []
  /-- what the fibers' calls returned -/
  rets : List (Nat × Int) := []

/-- The platform: the limit of threads (KFIBER_AIO_DEFAULT_WORKER 16, src/kasync_file.c:14), and whether BSD_OS is defined (on macOS it is,
include/kfeature.h:51-52). -/
structure Cfg where
  maxW : Nat := 16
  bsd : Bool := false

def bytes (mem : Nat → Byte) (a n : Nat) : List Byte := (List.range n).map fun i => mem (a + i)

/-- The effect of writing `data` at `a` in memory. -/
def store (mem : Nat → Byte) (a : Nat) (data : List Byte) : Nat → Byte :=
  fun x => if a ≤ x then (data[x - a]?).getD (mem x) else mem x

/-- The contents of a file after `pwrite` of `data` at `off`: a gap reads as zeros. -/
def overwrite (c : List Byte) (off : Nat) (data : List Byte) : List Byte :=
  if data = [] then c else
  (c.take off ++ List.replicate (off - c.length) 0) ++ data ++ c.drop (off + data.length)

def setFile (fl : Nat → File) (f : Nat) (x : File) : Nat → File := fun g => if g = f then x else fl g

def isQueued (j : Job) : Bool := j.stage = .queued

inductive Op where
  /-- `kgl_selector_module.aio_read` / `aio_write` of a file -/
  | start (f : Nat) (cmd : Cmd) (buf len : Nat)
  /-- a worker takes the first job of the queue, the `i`-th of `jobs` (src/kasync_worker.c:36-47) -/
  | take (i : Nat)
  /-- a worker finds the queue empty and ends (38-42) -/
  | leave
  /-- the system call of the `i`-th job; `none`: it fails, `some k`: `k` bytes (src/kasync_file.c:30-51) -/
  | sys (i : Nat) (ans : Option Nat)
  /-- the worker posts the result (src/kasync_file.c:57) -/
  | post (i : Nat)
  /-- the selector calls the callback; `a` is what `aio_return` answers for a request that never was one -/
  | deliver (i : Nat) (a : Int)
  /-- `kfiber_file_seek` with seekBegin, src/kfiber.c:602-606 -/
  | seek (f : Nat) (off : Int)
  /-- the program writes to its memory -/
  | poke (a : Nat) (b : Byte)
  deriving Repr

/-- What `pread`/`pwrite` may answer for `len` bytes at `off` of a file with contents `c` (POSIX, regular files): an error, or at most `len`
bytes; a read stops at the end of the file, and nothing is read only there; nothing is written only if nothing is asked for. -/
def allowed (cmd : Cmd) (c : List Byte) (off : Int) (len : Nat) : Option Nat → Bool
  | none => true
  | some k =>
    match cmd with
    | .read => decide (0 ≤ off ∧ k ≤ len ∧ k ≤ c.length - off.toNat ∧ (k = 0 → len = 0 ∨ c.length ≤ off.toNat))
    | .write => decide (0 ≤ off ∧ k ≤ len ∧ (k = 0 → len = 0))

/-- One job moves to another stage. -/
def setStage (jobs : List Job) (i : Nat) (j : Job) (st : Stage) : List Job := jobs.set i { j with stage := st }

/-- `kqueue_selector_aio_read` 361-391 / `kqueue_selector_aio_write` 330-360, `kasync_file_worker_start` (src/kasync_file.c:61-66) and
`kasync_worker_add` (src/kasync_worker.c:85-113). -/
def startIo (g : Cfg) (s : St) (f : Nat) (cmd : Cmd) (buf len : Nat) : St :=
  let x := s.fl f
  let op := s.asks.length
  let x := { x with cmd := cmd, buf := buf, len := len }
  let x := match cmd with
    | .read => { x with eRead := op }
    | .write => { x with eWrite := op }
  let s := { s with
    fl := setFile s.fl f x
    jobs := s.jobs ++ [{ file := f, op := op }]
    asks := s.asks ++ [⟨f, cmd, buf, len, x.offset, bytes s.mem buf len⟩] }
  if s.nworker ≥ g.maxW then s else { s with nworker := s.nworker + 1, idle := s.idle + 1 }

/-- What a system call returns: -1 or the number of bytes. -/
def retOf : Option Nat → Int
  | none => -1
  | some k => k

/-- `kasync_file_worker_callback` up to the answer of the system call, src/kasync_file.c:18-56, for the job `j` at `i`. -/
def sysCall (s : St) (i : Nat) (j : Job) (ans : Option Nat) : St :=
  let x := s.fl j.file
  let ret := retOf ans
  let k := ans.getD 0
  match x.cmd with
  | .read =>
    let data := (x.content.drop x.offset.toNat).take k
    { s with
      mem := store s.mem x.buf data
      jobs := setStage s.jobs i j (.done .read ret)
      perf := s.perf ++ [⟨j.op, j.file, .read, x.buf, x.len, x.offset, ret, data, x.content⟩] }
  | .write =>
    let data := bytes s.mem x.buf k
    { s with
      fl := setFile s.fl j.file { x with content := overwrite x.content x.offset.toNat data }
      jobs := setStage s.jobs i j (.done .write ret)
      perf := s.perf ++ [⟨j.op, j.file, .write, x.buf, x.len, x.offset, ret, data, x.content⟩] }

/-- `kgl_selector_module.next(selector, opaque, e[op].result, e[op].arg, ret)`, src/kasync_file.c:57; the worker then looks for the next job. -/
def postJob (s : St) (i : Nat) (j : Job) (c : Cmd) (r : Int) : St :=
  let x := s.fl j.file
  { s with
    jobs := setStage s.jobs i j (.posted (match c with | .read => x.eRead | .write => x.eWrite) r)
    idle := s.idle + 1 }

/-- `kfiber_file_callback`, src/kfiber.c:566-579: with BSD_OS the length is replaced by what `aio_return` answers (569); the offset
advances; the fiber's call returns the length. -/
def callback (g : Cfg) (s : St) (o : Nat) (r a : Int) : St :=
  let v := if g.bsd then a else r
  let s := { s with told := s.told ++ [(o, r)], rets := s.rets ++ [(o, v)] }
  match s.asks[o]? with
  | none => s
  | some q =>
    let x := s.fl q.file
    if 0 < v then
      { s with fl := setFile s.fl q.file { x with offset := x.offset + v, got := x.got ++ bytes s.mem q.buf v.toNat } }
    else s

def step (g : Cfg) (s : St) : Op → Res St
  | .start f cmd buf len => .ok (startIo g s f cmd buf len)
  | .take i =>
    match s.jobs[i]? with
    | none => .disabled
    | some j =>
      if 0 < s.idle ∧ j.stage = .queued ∧ (s.jobs.take i).all (fun j => !isQueued j) then
        .ok { s with idle := s.idle - 1, jobs := setStage s.jobs i j .taken }
      else .disabled
  | .leave =>
    if 0 < s.idle ∧ s.jobs.all (fun j => !isQueued j) then
      .ok { s with idle := s.idle - 1, nworker := s.nworker - 1 }
    else .disabled
  | .sys i ans =>
    match s.jobs[i]? with
    | none => .disabled
    | some j =>
      let x := s.fl j.file
      if j.stage = .taken ∧ allowed x.cmd x.content x.offset x.len ans then .ok (sysCall s i j ans) else .disabled
  | .post i =>
    match s.jobs[i]? with
    | none => .disabled
    | some j =>
      match j.stage with
      | .done c r => .ok (postJob s i j c r)
      | _ => .disabled
  | .deliver i a =>
    match s.jobs[i]? with
    | none => .disabled
    | some j =>
      match j.stage with
      | .posted o r => .ok (callback g { s with jobs := s.jobs.eraseIdx i } o r a)
      | _ => .disabled
  | .seek f off => .ok { s with fl := setFile s.fl f { s.fl f with offset := off, base := off, got := [] } }
  | .poke a b => .ok { s with mem := fun x => if x = a then b else s.mem x }

end Kasync.WFile
