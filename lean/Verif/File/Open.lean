/-!
# Opening files (src/kfile.c:65-161, Linux branch)

`kfopen` computes the flags of `open(2)` from the mode and the KFILE_ flags; a small model of `open` says what they mean, so that
the properties can be stated about the file.
-/

namespace Kasync.Open

/-- `fileModel`, include/kfeature.h:191-199 -/
inductive Mode where
  | read | write | modify | readWrite | writeRead | append
  deriving Repr, DecidableEq

-- KFILE_ flags, include/kfeature.h:178-183
abbrev kfTemp : BitVec 32 := 1
abbrev kfAsync : BitVec 32 := 2
abbrev kfNofollow : BitVec 32 := 4
abbrev kfDsync : BitVec 32 := 8
abbrev kfSequential : BitVec 32 := 16
abbrev kfNoatime : BitVec 32 := 32

-- the flags of open(2) on Linux x86-64 (asm-generic/fcntl.h)
abbrev oWronly : BitVec 32 := 1
abbrev oRdwr : BitVec 32 := 2
abbrev oAccmode : BitVec 32 := 3
abbrev oCreat : BitVec 32 := 0x40
abbrev oTrunc : BitVec 32 := 0x200
abbrev oAppend : BitVec 32 := 0x400
abbrev oDsync : BitVec 32 := 0x1000
abbrev oLargefile : BitVec 32 := 0x8000
abbrev oNofollow : BitVec 32 := 0x20000
abbrev oNoatime : BitVec 32 := 0x40000
abbrev oCloexec : BitVec 32 := 0x80000

/-- `KBIT_TEST`, include/kfeature.h:74 -/
def test (a b : BitVec 32) : Bool := (a &&& b) != 0

/-- `kfopen`: the flags handed to `open`, src/kfile.c:122-160 -/
def kfopen (m : Mode) (flag : BitVec 32) : BitVec 32 :=
  let f := oCloexec
  let f := if test flag kfNoatime then f ||| oNoatime else f
  let f := f ||| oLargefile
  let f := if test flag kfNofollow then f ||| oNofollow else f
  let f := if test flag kfDsync then f ||| oDsync else f
  match m with
  | .read => f
  | .append => f ||| (oWronly ||| oAppend ||| oCreat)
  | .modify => f ||| (oWronly ||| oCreat)
  | .write => f ||| (oWronly ||| oCreat ||| oTrunc)
  | .readWrite => f ||| oRdwr
  | .writeRead => f ||| (oRdwr ||| oCreat ||| oTrunc)

/-- `kfiber_file_open`, src/kfiber.c:553-565: KFILE_ASYNC is added. -/
def fiberOpen (m : Mode) (flag : BitVec 32) : BitVec 32 := kfopen m (flag ||| kfAsync)

/-! ## `open(2)` -/

/-- What a path names: nothing, a regular file with contents, or a symbolic link to a regular file. -/
inductive Node where
  | absent
  | file (content : List Nat)
  | link (content : List Nat)
  deriving Repr, DecidableEq

structure Handle where
  canRead : Bool
  canWrite : Bool
  append : Bool
  dsync : Bool
  cloexec : Bool
  deriving Repr, DecidableEq

/-- The file behind a node. -/
def Node.content : Node → Option (List Nat)
  | .absent => none
  | .file c => some c
  | .link c => some c

/-- `open(path, f, 0644)` of a path the process may use: the node afterwards and the handle, or failure. -/
def sysOpen (f : BitVec 32) (n : Node) : Option (Node × Handle) :=
  let h : Handle := { canRead := f &&& oAccmode != oWronly, canWrite := f &&& oAccmode != 0, append := test f oAppend,
                      dsync := test f oDsync, cloexec := test f oCloexec }
  let t (c : List Nat) : List Nat := if test f oTrunc then [] else c
  match n with
  | .absent => if test f oCreat then some (.file [], h) else none
  | .file c => some (.file (t c), h)
  | .link c => if test f oNofollow then none else some (.link (t c), h)

/-! ## Properties (C42) -/

/-- The table of the modes (the comments of include/kfeature.h:191-199). -/
def Mode.mayRead : Mode → Bool
  | .read | .readWrite | .writeRead => true
  | _ => false
def Mode.mayWrite : Mode → Bool
  | .read => false
  | _ => true
def Mode.creates : Mode → Bool
  | .write | .modify | .writeRead | .append => true
  | _ => false
def Mode.truncates : Mode → Bool
  | .write | .writeRead => true
  | _ => false

theorem kfopen_bits (m : Mode) (flag : BitVec 32) :
    (kfopen m flag &&& oAccmode) = (if m.mayRead then (if m.mayWrite then oRdwr else 0) else oWronly) ∧
    test (kfopen m flag) oCreat = m.creates ∧ test (kfopen m flag) oTrunc = m.truncates ∧
    test (kfopen m flag) oAppend = decide (m = .append) ∧ test (kfopen m flag) oDsync = test flag kfDsync ∧
    test (kfopen m flag) oNofollow = test flag kfNofollow ∧ test (kfopen m flag) oNoatime = test flag kfNoatime ∧
    test (kfopen m flag) oCloexec = true := by
  unfold kfopen
  cases h1 : test flag kfNoatime <;> cases h2 : test flag kfNofollow <;> cases h3 : test flag kfDsync <;> cases m <;>
    refine ⟨?_, ?_, ?_, ?_, ?_, ?_, ?_, ?_⟩ <;> decide

/-- Every mode and every combination of flags gives exactly the access of the table. -/
theorem open_access (m : Mode) (flag : BitVec 32) (n n' : Node) (h : Handle) (he : sysOpen (kfopen m flag) n = some (n', h)) :
    h.canRead = m.mayRead ∧ h.canWrite = m.mayWrite ∧ h.append = decide (m = .append) ∧ h.dsync = test flag kfDsync ∧ h.cloexec = true := by
  obtain ⟨b1, b2, b3, b4, b5, b6, b7, b8⟩ := kfopen_bits m flag
  have key : h = { canRead := m.mayRead, canWrite := m.mayWrite, append := decide (m = .append), dsync := test flag kfDsync, cloexec := true } := by
    have hh : ∀ h', h' = ({ canRead := kfopen m flag &&& oAccmode != oWronly, canWrite := kfopen m flag &&& oAccmode != 0, append := test (kfopen m flag) oAppend, dsync := test (kfopen m flag) oDsync, cloexec := test (kfopen m flag) oCloexec } : Handle) →
        h' = { canRead := m.mayRead, canWrite := m.mayWrite, append := decide (m = .append), dsync := test flag kfDsync, cloexec := true } := by
      intro h' e
      rw [e, b1, b4, b5, b8]
      congr 1 <;> cases m <;> decide
    apply hh
    unfold sysOpen at he
    cases n <;> dsimp only at he
    · split at he
      · simp only [Option.some.injEq, Prod.mk.injEq] at he; exact he.2.symm
      · cases he
    · simp only [Option.some.injEq, Prod.mk.injEq] at he; exact he.2.symm
    · split at he
      · cases he
      · simp only [Option.some.injEq, Prod.mk.injEq] at he; exact he.2.symm
  rw [key]
  exact ⟨rfl, rfl, rfl, rfl, rfl⟩

/-- What happens to the file: it is created exactly in the creating modes, emptied exactly in the truncating ones, and otherwise opening
changes nothing; a link is refused exactly with KFILE_NOFOLLOW. -/
theorem open_effect (m : Mode) (flag : BitVec 32) (n : Node) :
    (n = .absent → (sysOpen (kfopen m flag) n).map Prod.fst = if m.creates then some (.file []) else none) ∧
    (∀ c, n = .file c → (sysOpen (kfopen m flag) n).map Prod.fst = some (.file (if m.truncates then [] else c))) ∧
    (∀ c, n = .link c → (sysOpen (kfopen m flag) n).map Prod.fst =
      if test flag kfNofollow then none else some (.link (if m.truncates then [] else c))) := by
  obtain ⟨b1, b2, b3, b4, b5, b6, b7, b8⟩ := kfopen_bits m flag
  refine ⟨?_, ?_, ?_⟩
  · rintro rfl
    simp only [sysOpen, b2]
    cases m.creates <;> rfl
  · rintro c rfl
    simp only [sysOpen, b3, Option.map_some]
  · rintro c rfl
    simp only [sysOpen, b3, b6]
    cases test flag kfNofollow <;> rfl

/-- Read-only opens never create, empty or otherwise change anything, whatever the flags. -/
theorem open_read_changes_nothing (flag : BitVec 32) (n n' : Node) (h : Handle) (he : sysOpen (kfopen .read flag) n = some (n', h)) :
    n' = n ∧ h.canWrite = false := by
  obtain ⟨e1, e2, e3⟩ := open_effect .read flag n
  have ha := open_access _ _ _ _ _ he
  refine ⟨?_, ha.2.1⟩
  rw [he] at e1 e2 e3
  cases n with
  | absent => have := e1 rfl; simp [Mode.creates] at this
  | file c => have := e2 c rfl; simpa [Mode.truncates] using this
  | link c =>
    have := e3 c rfl
    cases ht : test flag kfNofollow
    · rw [ht] at this; simpa [Mode.truncates] using this
    · rw [ht] at this; simp at this

/-- `kfiber_file_open` opens the file as `kfopen` does: the KFILE_ASYNC flag it adds has no meaning here. -/
theorem fiber_open_same (m : Mode) (flag : BitVec 32) : fiberOpen m flag = kfopen m flag := by
  have t : ∀ b : BitVec 32, b &&& kfAsync = 0 → test (flag ||| kfAsync) b = test flag b := by
    intro b hb
    unfold test
    have : (flag ||| kfAsync) &&& b = flag &&& b := by
      rw [BitVec.and_comm, BitVec.and_or_distrib_left, hb, show (0 : BitVec 32) = 0#32 from rfl, BitVec.or_zero, BitVec.and_comm]
    rw [this]
  simp only [fiberOpen, kfopen, t _ (show kfNoatime &&& kfAsync = 0 by decide), t _ (show kfNofollow &&& kfAsync = 0 by decide),
    t _ (show kfDsync &&& kfAsync = 0 by decide)]

example : sysOpen (kfopen .modify (kfDsync ||| kfTemp)) (.file [1, 2]) = some (.file [1, 2], ⟨false, true, false, true, true⟩) := by decide
example : sysOpen (kfopen .readWrite 0) .absent = none := by decide
example : sysOpen (kfopen .writeRead kfNofollow) (.link [1]) = none := by decide

/-- Finding: KFILE_TEMP_MODEL, which on Windows makes the file private and deletes it when it is closed, has no effect here: the file
stays. -/
theorem open_temp_ignored (m : Mode) (flag : BitVec 32) : kfopen m (flag ||| kfTemp) = kfopen m flag := by
  have t : ∀ b : BitVec 32, b &&& kfTemp = 0 → test (flag ||| kfTemp) b = test flag b := by
    intro b hb
    unfold test
    have : (flag ||| kfTemp) &&& b = flag &&& b := by
      rw [BitVec.and_comm, BitVec.and_or_distrib_left, hb, show (0 : BitVec 32) = 0#32 from rfl, BitVec.or_zero, BitVec.and_comm]
    rw [this]
  simp only [kfopen, t _ (show kfNoatime &&& kfTemp = 0 by decide), t _ (show kfNofollow &&& kfTemp = 0 by decide),
    t _ (show kfDsync &&& kfTemp = 0 by decide)]

end Kasync.Open
