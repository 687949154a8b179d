/-!
# Model of `kgl_ssl_ctx_set_protocols`, src/kgl_ssl.c:852-926

The copy made by `strdup` is a list of bytes ending in NUL, read by index; reading outside of it is `none`.  `isspace` and
`strcasecmp` are those of the "C" locale.  The options of the context are the six `SSL_OP_NO_*` bits and the others; OpenSSL is one that
has TLS 1.3 (all branches of the conditional compilation are present).
-/

namespace Kasync.Tls.Proto

/-- `KGL_SSL_SSLv2` ... `KGL_SSL_TLSv1_3`, 27-32: six distinct bits; a mask is the list of its bits -/
inductive Ver where
  | ssl2 | ssl3 | tls1 | tls11 | tls12 | tls13
  deriving Repr, DecidableEq

/-- `isspace` -/
def isSpace (c : UInt8) : Bool := c = 32 || (9 ≤ c && c ≤ 13)

/-- `tolower` -/
def lower (c : UInt8) : UInt8 := if 65 ≤ c && c ≤ 90 then c + 32 else c

/-- `kgl_ssl_protocols`, 33-41: the names -/
def name : Ver → List UInt8
  | .ssl2 => [83, 83, 76, 118, 50]
  | .ssl3 => [83, 83, 76, 118, 51]
  | .tls1 => [84, 76, 83, 118, 49]
  | .tls11 => [84, 76, 83, 118, 49, 46, 49]
  | .tls12 => [84, 76, 83, 118, 49, 46, 50]
  | .tls13 => [84, 76, 83, 118, 49, 46, 51]

/-- `kgl_ssl_protocols`, 33-41 -/
def table : List (List UInt8 × Ver) :=
  [(name .ssl2, .ssl2), (name .ssl3, .ssl3), (name .tls1, .tls1), (name .tls11, .tls11), (name .tls12, .tls12), (name .tls13, .tls13)]

/-- 868-870: `while (*hot && isspace(*hot)) hot++` -/
def skip (buf : List UInt8) (i : Nat) : Option Nat :=
  match h : buf[i]? with
  | none => none
  | some c => if c ≠ 0 && isSpace c then skip buf (i + 1) else some i
termination_by buf.length - i
decreasing_by have := (List.getElem?_eq_some_iff.1 h).1; omega

/-- 871-874: `while (*p && !isspace(*p)) p++` -/
def word (buf : List UInt8) (i : Nat) : Option Nat :=
  match h : buf[i]? with
  | none => none
  | some c => if c ≠ 0 && !isSpace c then word buf (i + 1) else some i
termination_by buf.length - i
decreasing_by have := (List.getElem?_eq_some_iff.1 h).1; omega

/-- the C string at an index -/
def cstr (buf : List UInt8) (i : Nat) : Option (List UInt8) :=
  match h : buf[i]? with
  | none => none
  | some c => if c = 0 then some [] else (cstr buf (i + 1)).map (c :: ·)
termination_by buf.length - i
decreasing_by have := (List.getElem?_eq_some_iff.1 h).1; omega

/-- `strcasecmp(a, b) == 0` -/
def caseEq (a b : List UInt8) : Bool := a.map lower = b.map lower

/-- 882-888: the table is searched; several entries may match -/
def look (w : List UInt8) (mask : List Ver) : List Ver := table.foldl (fun m e => if caseEq e.1 w then e.2 :: m else m) mask

theorem skip_ge {buf : List UInt8} {i j : Nat} (h : skip buf i = some j) : i ≤ j := by
  fun_induction skip buf i <;> grind

theorem word_ge {buf : List UInt8} {i j : Nat} (h : word buf i = some j) : i ≤ j := by
  fun_induction word buf i <;> grind

/-- the loop, 867-893, from position `hot` -/
def loop (buf : List UInt8) (hot : Nat) (mask : List Ver) : Option (List Ver) :=
  match h1 : skip buf hot with
  | none => none
  | some h =>
    match h2 : word buf h with
    | none => none
    | some p =>
      if p = h then some mask
      else
        match h3 : buf[p]? with
        | none => none
        | some c =>
          -- 878-881
          let buf' := if c ≠ 0 then buf.set p 0 else buf
          let p' := if c ≠ 0 then p + 1 else p
          match cstr buf' h with
          | none => none
          | some w =>
            match buf'[p']? with
            | none => none
            | some c' => if c' = 0 then some (look w mask) else loop buf' p' (look w mask)
termination_by buf.length - hot
decreasing_by
  have a := skip_ge h1
  have b := word_ge h2
  have d := (List.getElem?_eq_some_iff.1 h3).1
  have hl : buf'.length = buf.length := by simp only [buf']; split <;> simp
  have hp : p ≤ p' := by simp only [p']; split <;> omega
  simp only [buf', p'] at hl hp
  simp only [hl]
  omega

/-- what the context says about versions -/
structure Ctx where
  /-- `SSL_OP_NO_SSLv2` ... `SSL_OP_NO_TLSv1_3` -/
  no : Ver → Bool
  /-- the other options -/
  other : Nat
  min : Option Ver
  max : Option Ver

/-- `SSL_CTX_set_options(ctx, SSL_OP_NO_v)` -/
def setNo (c : Ctx) (v : Ver) : Ctx := { c with no := fun x => if x = v then true else c.no x }

/-- `SSL_CTX_clear_options(ctx, SSL_OP_NO_v)` -/
def clearNo (c : Ctx) (v : Ver) : Ctx := { c with no := fun x => if x = v then false else c.no x }

/-- `if (!(mask & v)) SSL_CTX_set_options(ctx, SSL_OP_NO_v)` -/
def setUnless (c : Ctx) (mask : List Ver) (v : Ver) : Ctx := if v ∈ mask then c else setNo c v

/-- `kgl_ssl_ctx_set_protocols`, 852-926; `none` is NULL -/
def setProtocols (c : Ctx) (protocols : Option (List UInt8)) : Option Ctx :=
  -- 853-863
  let c := { c with min := none, max := some .tls13 }
  match protocols with
  | none => some c
  | some [] => some c
  | some s =>
    match loop (s ++ [0]) 0 [] with
    | none => none
    | some mask =>
      -- 897-925
      let c := clearNo (clearNo (clearNo c .ssl2) .ssl3) .tls1
      let c := setUnless (setUnless (setUnless c mask .ssl2) mask .ssl3) mask .tls1
      let c := setUnless (clearNo c .tls11) mask .tls11
      let c := setUnless (clearNo c .tls12) mask .tls12
      some (setUnless (clearNo c .tls13) mask .tls13)

/-- versions a connection can use -/
def rank : Ver → Nat
  | .ssl2 => 0 | .ssl3 => 1 | .tls1 => 2 | .tls11 => 3 | .tls12 => 4 | .tls13 => 5

/-- OpenSSL: a version is usable when it is between the bounds (a bound of 0 is no bound) and not switched off -/
def Ctx.usable (c : Ctx) (v : Ver) : Prop :=
  (∀ m, c.min = some m → rank m ≤ rank v) ∧ (∀ m, c.max = some m → rank v ≤ rank m) ∧ c.no v = false

end Kasync.Tls.Proto
