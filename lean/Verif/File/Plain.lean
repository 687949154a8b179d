import Verif.File.Open

/-!
# Model of plain file access (src/kfile.c:118-206, include/kfile.h, Linux branch)

`kfopen`, `kfseek`, `kfread`, `kfwrite`, `kfread_all`, `kfsize`, `kfutime`, `kftime`, `kfile_last_modified` and `kfclose` over a small kernel: names,
files (contents and time), descriptors (each with its own offset).  The kernel may refuse any call, and give or take fewer bytes than asked for.

Simplifications: only regular files and links to them (no pipes, no directories); names are numbers and are never removed; `int` and `int64_t` arguments are
integers, an offset must fit `off_t`; there is no limit to the size of a file.  What `open` does with a mode is that of `File/Open`.
-/

namespace Kasync.Plain
open Kasync.Open (Mode Handle Node sysOpen kfopen test oTrunc)

/-- A file of the file system. -/
structure Ino where
  data : List Nat := []
  mtime : Int := 0
  deriving Repr, DecidableEq

/-- What a path names. -/
inductive Name where
  | absent
  | file (i : Nat)
  | link (i : Nat)
  deriving Repr, DecidableEq

/-- An open descriptor. -/
structure Fd where
  ino : Nat
  off : Nat := 0
  h : Handle
  deriving Repr, DecidableEq

/-- The file system and the descriptors of the process. -/
structure St where
  names : Nat → Name := fun _ => .absent
  ino : Nat → Ino := fun _ => {}
  /-- number of the next file -/
  next : Nat := 0
  fds : Nat → Option Fd := fun _ => none

def upd {α : Type} (f : Nat → α) (i : Nat) (v : α) : Nat → α := fun j => if j = i then v else f j

/-- How the kernel answers a read or write: with an error, or moving at most `k + 1` bytes. -/
inductive Ans where
  | err
  | got (k : Nat)
  deriving Repr, DecidableEq

/-- The path as `File/Open` sees it. -/
def view (s : St) (p : Nat) : Node :=
  match s.names p with
  | .absent => .absent
  | .file i => .file (s.ino i).data
  | .link i => .link (s.ino i).data

/-- `kfopen`, src/kfile.c:118-161, at time `now`; `n`: the free descriptor the kernel would give, none if it refuses. -/
def kopen (s : St) (p : Nat) (m : Mode) (flag : BitVec 32) (n : Option Nat) (now : Int) : St × Option Nat :=
  match n with
  | none => (s, none)
  | some n =>
    if (s.fds n).isSome then (s, none)
    else match sysOpen (kfopen m flag) (view s p) with
      | none => (s, none)
      | some (node, h) =>
        let put (i : Nat) : St × Option Nat :=
          ({ s with ino := upd s.ino i { data := node.content.getD [], mtime := if test (kfopen m flag) oTrunc then now else (s.ino i).mtime },
                    fds := upd s.fds n (some { ino := i, h := h }) }, some n)
        match s.names p with
        | .absent =>
          ({ s with names := upd s.names p (.file s.next), ino := upd s.ino s.next { data := node.content.getD [], mtime := now }, next := s.next + 1,
                    fds := upd s.fds n (some { ino := s.next, h := h }) }, some n)
        | .file i => put i
        | .link i => put i

/-- `kfclose`, include/kfile.h:53 -/
def kclose (s : St) (n : Nat) : St := { s with fds := upd s.fds n none }

/-- `seekPosion`, include/kfeature.h:184-189; `other`: a value that is none of the three. -/
inductive Seek where
  | begin | end | cur | other
  deriving Repr, DecidableEq

/-- Largest `off_t`. -/
def offMax : Int := 9223372036854775807

/-- `lseek64(n, len, flag)` with `flag` 0 (SEEK_SET), 1 (SEEK_CUR) or 2 (SEEK_END). -/
def lseek (s : St) (n : Nat) (len : Int) (flag : Nat) : St × Int :=
  match s.fds n with
  | none => (s, -1)
  | some f =>
    let base : Int := if flag = 0 then 0 else if flag = 1 then f.off else (s.ino f.ino).data.length
    let o := base + len
    if o < 0 ∨ offMax < o then (s, -1)
    else ({ s with fds := upd s.fds n (some { f with off := o.toNat }) }, o)

/-- `kfseek`, src/kfile.c:164-182 -/
def kfseek (s : St) (n : Nat) (len : Int) (pos : Seek) : St × Bool :=
  let flag := match pos with
    | .begin => 0
    | .end => 2
    | .cur => 1
    | .other => 0
  let r := lseek s n len flag
  (r.1, r.2 != -1)

/-- `kfread`, include/kfile.h:55: `read(n, buf, len)`: the bytes read, none for -1. -/
def kfread (s : St) (n : Nat) (len : Nat) (a : Ans) : St × Option (List Nat) :=
  match s.fds n, a with
  | some f, .got k =>
    if f.h.canRead then
      let bs := ((s.ino f.ino).data.drop f.off).take (min len (k + 1))
      ({ s with fds := upd s.fds n (some { f with off := f.off + bs.length }) }, some bs)
    else (s, none)
  | _, _ => (s, none)

/-- The bytes of a file after `bs` was written at `pos`: a gap is filled with zeros. -/
def splice (d : List Nat) (pos : Nat) (bs : List Nat) : List Nat :=
  if bs = [] then d
  else (d ++ List.replicate (pos - d.length) 0).take pos ++ bs ++ d.drop (pos + bs.length)

/-- `kfwrite`, include/kfile.h:54: `write(n, bs, length)` at time `now`: the number of bytes written, none for -1. -/
def kfwrite (s : St) (n : Nat) (bs : List Nat) (a : Ans) (now : Int) : St × Option Nat :=
  match s.fds n, a with
  | some f, .got k =>
    if f.h.canWrite then
      let piece := bs.take (k + 1)
      let d := (s.ino f.ino).data
      let pos := if f.h.append then d.length else f.off
      ({ s with ino := upd s.ino f.ino { data := splice d pos piece, mtime := if piece = [] then (s.ino f.ino).mtime else now },
                fds := upd s.fds n (some { f with off := pos + piece.length }) }, some piece.length)
    else (s, none)
  | _, _ => (s, none)

/-- The memory after `bs` was stored at `p`. -/
def store (mem : Nat → Nat) (p : Nat) (bs : List Nat) : Nat → Nat := fun j => if p ≤ j then (bs[j - p]?).getD (mem j) else mem j

/-- `kfread_all`, include/kfile.h:124-135, into memory at `buf`; `as`: the answers of the kernel, after the last it gives whatever is asked for. -/
def kfreadAll (s : St) (n : Nat) (buf : Nat) (len : Int) (mem : Nat → Nat) (as : List Ans) : St × (Nat → Nat) × Bool :=
  if 0 < len then
    match kfread s n len.toNat (as.headD (.got len.toNat)) with
    | (s1, none) => (s1, mem, false)
    | (s1, some bs) =>
      if bs = [] then (s1, mem, false)
      else kfreadAll s1 n (buf + bs.length) (len - bs.length) (store mem buf bs) as.tail
  else (s, mem, true)
termination_by len.toNat
decreasing_by
  rename_i h hb
  have : 0 < bs.length := by
    cases bs with
    | nil => exact absurd rfl hb
    | cons _ _ => simp
  omega

/-- `kfsize`, include/kfile.h:60-78 -/
def kfsize (s : St) (n : Nat) : Int :=
  match s.fds n with
  | none => 0
  | some f => (s.ino f.ino).data.length

/-- `kfutime`, include/kfile.h:80-93; `ok`: the kernel allows it. -/
def kfutime (s : St) (n : Nat) (t : Int) (ok : Bool) : St × Bool :=
  match s.fds n with
  | none => (s, false)
  | some f => if ok then ({ s with ino := upd s.ino f.ino { s.ino f.ino with mtime := t } }, true) else (s, false)

/-- `kftime`, include/kfile.h:104-122 -/
def kftime (s : St) (n : Nat) : Int :=
  match s.fds n with
  | none => 0
  | some f => (s.ino f.ino).mtime

/-- `kfile_last_modified`, include/kfile.h:94-102: `lstat` does not follow links. -/
def lastModified (s : St) (p : Nat) : Int :=
  match s.names p with
  | .file i => (s.ino i).mtime
  | _ => 0

/-- A call. -/
inductive Op where
  | open (p : Nat) (m : Mode) (flag : BitVec 32) (n : Option Nat) (now : Int)
  | close (n : Nat)
  | seek (n : Nat) (len : Int) (pos : Seek)
  | read (n len : Nat) (a : Ans)
  | readAll (n : Nat) (len : Int) (as : List Ans)
  | write (n : Nat) (bs : List Nat) (a : Ans) (now : Int)
  | utime (n : Nat) (t : Int) (ok : Bool)
  deriving Repr, DecidableEq

/-- The state after a call. -/
def step (s : St) : Op → St
  | .open p m flag n now => (kopen s p m flag n now).1
  | .close n => kclose s n
  | .seek n len pos => (kfseek s n len pos).1
  | .read n len a => (kfread s n len a).1
  | .readAll n len as => (kfreadAll s n 0 len (fun _ => 0) as).1
  | .write n bs a now => (kfwrite s n bs a now).1
  | .utime n t ok => (kfutime s n t ok).1

/-- The state after a history. -/
def run (s : St) (ops : List Op) : St := ops.foldl step s

end Kasync.Plain
