/-!
# Model of the "full" transfer loops, include/kfiber.h and src/kfiber.c

A loop asks the operating system (through one fiber wait) to transfer some bytes and gets back a count; the count is chosen by the environment.
`results : List Int` are the counts the environment would report, one per call; a request for `n` bytes that is granted `r` reports `min r n`, since no
call moves more than it was asked to.  When the list is used up the call fails with -1.  A run makes finitely many calls, so finite lists
cover every run.  A positive count means that exactly that many bytes were moved, from the front of the request; zero or a negative count that
none were moved.
-/

namespace Kasync.NetIO

abbrev Byte := Nat

/-- a buffer: pointer into memory is the list of bytes from there on -/
abbrev Buf := List Byte

/-- the count reported for a request of `n` bytes when the environment grants `r` -/
def granted (r n : Int) : Int := min r n

/-- `kfiber_net_write_full`, include/kfiber.h:233-243.  Result: return value, `*len` at the end, bytes put on the wire. -/
def writeFull : List Int → Buf → Int → Bool × Int × List Byte
  | [], _, len => if len > 0 then (false, len, []) else (true, len, [])
  | r :: rs, buf, len =>
    if len > 0 then
      let got := granted r len
      if got ≤ 0 then (false, len, [])
      else
        let x := writeFull rs (buf.drop got.toNat) (len - got)
        (x.1, x.2.1, buf.take got.toNat ++ x.2.2)
    else (true, len, [])

/-- `kfiber_net_read_full`, include/kfiber.h:269-279.  `incoming`: what the peer sends before it closes.
Result: return value, `*len` at the end, memory from `buf` on, bytes of `incoming` not read. -/
def readFull : List Int → List Byte → Buf → Int → Bool × Int × Buf × List Byte
  | [], inc, buf, len => if len > 0 then (false, len, buf, inc) else (true, len, buf, inc)
  | r :: rs, inc, buf, len =>
    if len > 0 then
      let got := granted r (min len inc.length)
      if got ≤ 0 then (false, len, buf, inc)
      else
        let x := readFull rs (inc.drop got.toNat) (buf.drop got.toNat) (len - got)
        (x.1, x.2.1, inc.take got.toNat ++ x.2.2.1, x.2.2.2)
    else (true, len, buf, inc)

/-- A file open for asynchronous access: contents, end of file, `st.offset`. -/
structure File where
  data : Nat → Byte
  size : Nat
  offset : Nat

/-- the bytes of the file from `o` on, `n` of them -/
def range (d : Nat → Byte) (o n : Nat) : List Byte := (List.range n).map (fun i => d (o + i))

/-- `kfiber_sendfile_full`, include/kfiber.h:196-205, with `kfiber_result_sendfile`, src/kfiber.c:461-468 (the offset moves by the count).
Result: return value, `*len`, file, bytes put on the wire. -/
def sendfileFull : List Int → File → Int → Bool × Int × File × List Byte
  | [], f, len => if len > 0 then (false, len, f, []) else (true, len, f, [])
  | r :: rs, f, len =>
    if len > 0 then
      let got := granted r (min len ((f.size - f.offset : Nat) : Int))
      if got ≤ 0 then (false, len, f, [])
      else
        let x := sendfileFull rs { f with offset := f.offset + got.toNat } (len - got)
        (x.1, x.2.1, x.2.2.1, range f.data f.offset got.toNat ++ x.2.2.2)
    else (true, len, f, [])

/-- `kfiber_file_read_full`, include/kfiber.h:304-314, with `kfiber_file_callback`, src/kfiber.c:566-578, for a file not in direct mode -/
def fileReadFull : List Int → File → Buf → Int → Bool × Int × File × Buf
  | [], f, buf, len => if len > 0 then (false, len, f, buf) else (true, len, f, buf)
  | r :: rs, f, buf, len =>
    if len > 0 then
      let got := granted r (min len ((f.size - f.offset : Nat) : Int))
      if got ≤ 0 then (false, len, f, buf)
      else
        let x := fileReadFull rs { f with offset := f.offset + got.toNat } (buf.drop got.toNat) (len - got)
        (x.1, x.2.1, x.2.2.1, range f.data f.offset got.toNat ++ x.2.2.2)
    else (true, len, f, buf)

/-- what `pwrite` of `bytes` at `o` makes of a file -/
def pwrite (f : File) (bytes : List Byte) : File :=
  { f with data := fun i => if f.offset ≤ i ∧ i < f.offset + bytes.length then bytes.getD (i - f.offset) 0 else f.data i,
           size := max f.size (f.offset + bytes.length) }

/-- `kfiber_file_write_full`, include/kfiber.h:293-303 -/
def fileWriteFull : List Int → File → Buf → Int → Bool × Int × File
  | [], f, _, len => if len > 0 then (false, len, f) else (true, len, f)
  | r :: rs, f, buf, len =>
    if len > 0 then
      let got := granted r len
      if got ≤ 0 then (false, len, f)
      else
        let f1 := pwrite f (buf.take got.toNat)
        fileWriteFull rs { f1 with offset := f.offset + got.toNat } (buf.drop got.toNat) (len - got)
    else (true, len, f)

/-- `kfiber_file_safe_write_full`, src/kfiber.c:657-675: `same`: the caller runs on the file's selector; otherwise a fiber is created there (which
may fail) and its result joined (joining is verified in `Verif.Fiber`) -/
def fileSafeWriteFull (same createOk : Bool) (rs : List Int) (f : File) (buf : Buf) (len : Int) : Bool × Int × File :=
  if same then fileWriteFull rs f buf len
  else if createOk then
    let x := fileWriteFull rs f buf len
    let ret : Int := if x.1 then 1 else 0
    (ret != 0, x.2.1, x.2.2)
  else (false, len, f)

/-- `kfiber_file_read`, src/kfiber.c:582-591, one call -/
def fileRead (r : Int) (f : File) (len : Int) : Int := granted r (min len ((f.size - f.offset : Nat) : Int))

/-- `kfiber_file_safe_read`, src/kfiber.c:676-694 -/
def fileSafeRead (same createOk : Bool) (r : Int) (f : File) (len : Int) : Int :=
  if same then fileRead r f len else if createOk then fileRead r f len else 0

/-- conversion of a `size_t` to `int` -/
def toInt32 (n : Int) : Int := (n + 2 ^ 31) % 2 ^ 32 - 2 ^ 31

/-- the inner loop of `kfiber_net_writev_full`, include/kfiber.h:219-228; `none`: a vector past the end of the array is read -/
def skipVec : List Buf → Int → Int → Option (List Buf × Int)
  | bufs, bc, got =>
    if got > 0 then
      match bufs with
      | [] => none
      | v :: vs =>
        if toInt32 v.length > got then some (v.drop got.toNat :: vs, bc)
        else skipVec vs (bc - 1) (got - toInt32 v.length)
    else some (bufs, bc)

/-- all the bytes of a vector -/
def bytes (bufs : List Buf) : List Byte := bufs.flatten

/-- `kfiber_net_writev_full`, include/kfiber.h:211-231.  `bc` vectors of `bufs` are offered.
Result: return value, `*bc`, the vectors from the final `buf` on, bytes put on the wire; `none`: out of bounds. -/
def writevFull : List Int → List Buf → Int → Option (Nat × Int × List Buf × List Byte)
  | [], bufs, bc => some (0, bc, bufs, [])
  | r :: rs, bufs, bc =>
    if bc > 0 then
      let req := bytes (bufs.take bc.toNat)
      let got := granted r req.length
      if got ≤ 0 then some (0, bc, bufs, [])
      else
        match skipVec bufs bc got with
        | none => none
        | some (bufs', bc') =>
          match writevFull rs bufs' bc' with
          | none => none
          | some (t, bc'', bufs'', w) => some (got.toNat + t, bc'', bufs'', req.take got.toNat ++ w)
    else some (0, bc, bufs, [])

end Kasync.NetIO
