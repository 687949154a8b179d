import Verif.Tls.Sid

/-!
# C64: session id contexts and contexts made from files
-/

namespace Kasync.Tls.Sid

variable {H : Bytes → Bytes} {env : Env} {log : List Ev} {c : Ctx}

/-! ## Specification -/

/-- SHA-1 has 20 bytes -/
def Sha (H : Bytes → Bytes) : Prop := ∀ b, (H b).length = 20

/-- what is digested for a certificate in a file: its name, at most the first MiB of its content (nothing if it cannot be opened), the digests of the names of the authorities -/
def fileInput (H : Bytes → Bytes) (name : Bytes) (content : Option Bytes) (cas : List Bytes) : Bytes :=
  name ++ (content.getD []).take 1048576 ++ (cas.map H).flatten

/-- the text before its first zero byte -/
def beforeZero : Bytes → Bytes
  | [] => []
  | b :: l => if b = 0 then [] else b :: beforeZero l

theorem cstr_eq (t : Bytes) : cstr t = beforeZero t := by
  induction t with
  | nil => rfl
  | cons b l ih =>
    unfold cstr at ih ⊢
    by_cases hb : b = 0
    · simp [beforeZero, hb]
    · simp only [List.takeWhile_cons, ne_eq, decide_not, beforeZero, if_neg hb]
      simp only [ne_eq, decide_not] at ih
      simp [hb, ih]

/-- what is digested for a certificate in a text -/
def textInput (H : Bytes → Bytes) (text : Bytes) (cas : List Bytes) : Bytes := beforeZero text ++ (cas.map H).flatten

/-- a session made in one context can be resumed in the other (OpenSSL compares the session id contexts) -/
def CanResume (a b : Ctx) : Prop := a.sid = b.sid

/-- digests of the history that are not released, files not closed, contexts not released -/
def mds (l : List Ev) : Int := l.count .mdNew - l.count .mdFree
def isOpen : Ev → Bool | .fileOpen _ => true | _ => false
def files (l : List Ev) : Int := l.countP isOpen - l.count .fileClose
def ctxs (l : List Ev) : Int := l.count .ctxNew - l.count .ctxFree

/-- every close and release in the history answers an earlier open or creation (newest first) -/
def Sane : List Ev → Prop
  | [] => True
  | .mdFree :: l => mds l = 1 ∧ Sane l
  | .fileClose :: l => files l = 1 ∧ Sane l
  | .mdNew :: l => mds l = 0 ∧ Sane l
  | .fileOpen _ :: l => files l = 0 ∧ Sane l
  | .ctxNew :: l => Sane l
  | .ctxFree :: l => 0 < ctxs l ∧ Sane l

/-- nothing but contexts is left, and every release was right -/
def Clean (l : List Ev) : Prop := mds l = 0 ∧ files l = 0 ∧ 0 ≤ ctxs l ∧ Sane l

/-! ## The loop over the file -/

/-- some whole blocks (and the rest of the file) are taken, all of them until the MiB is full if the digest does not fail -/
theorem readLoop_spec (data : Bytes) (total i : Nat) (acc : Bytes) (ht : 512 ∣ total ∨ data = []) :
    ∃ n, readLoop env data total i acc = acc ++ data.take n ∧ n ≤ 1048576 - total ∧ ((∀ j, env.chunkOk j = true) → data.take n = data.take (1048576 - total)) := by
  fun_induction readLoop env data total i acc with
  | case1 data total i acc h h2 =>
    refine ⟨0, by simp, by omega, fun _ => ?_⟩
    have : data = [] := by
      cases data with
      | nil => rfl
      | cons a l => simp at h2
    simp [this]
  | case2 data total i acc h h2 hc ih =>
    have hne : data ≠ [] := by rintro rfl; simp at h2
    have hd : 512 ∣ total := ht.resolve_right hne
    have hlen : (data.take 512).length = min 512 data.length := List.length_take
    obtain ⟨n, h3, h4, h5⟩ := ih (by
      by_cases e : 512 ≤ data.length
      · left; rw [hlen, Nat.min_eq_left e]; omega
      · right; exact List.drop_eq_nil_of_le (by omega))
    by_cases e : 512 ≤ data.length
    · rw [hlen, Nat.min_eq_left e] at h4 h5
      refine ⟨512 + n, ?_, by omega, fun hj => ?_⟩
      · rw [h3, List.append_assoc, List.take_add]
      · have := h5 hj
        rw [List.take_add, this, show 1048576 - total = 512 + (1048576 - (total + 512)) by omega, List.take_add]
    · have hdr : data.drop 512 = [] := List.drop_eq_nil_of_le (by omega)
      refine ⟨512, ?_, by omega, fun _ => ?_⟩
      · rw [h3, hdr]; simp
      · rw [List.take_of_length_le (by omega), List.take_of_length_le (by omega)]
  | case3 data total i acc h h2 hc =>
    refine ⟨0, by simp, by omega, fun hj => absurd (hj i) hc⟩
  | case4 data total i acc h => exact ⟨0, by simp, by omega, fun _ => by rw [show 1048576 - total = 0 by omega]⟩

theorem digestCas_spec (l : List Bytes) (i : Nat) (acc : Bytes) :
    (∀ r, digestCas H env l i acc = some r → r = acc ++ (l.map H).flatten) ∧
    (digestCas H env l i acc = none ↔ ∃ j, j < l.length ∧ (env.caNameOk (i + j) = false ∨ env.caUpdOk (i + j) = false)) := by
  induction l generalizing i acc with
  | nil => simp [digestCas]
  | cons n ns ih =>
    unfold digestCas
    by_cases h1 : env.caNameOk i = true
    · by_cases h2 : env.caUpdOk i = true
      · simp only [h1, h2, Bool.not_true, Bool.false_eq_true, if_false]
        refine ⟨fun r hr => ?_, ?_⟩
        · rw [(ih (i + 1) (acc ++ H n)).1 r hr]; simp
        · rw [(ih (i + 1) (acc ++ H n)).2]
          constructor
          · rintro ⟨j, hj, h⟩; exact ⟨j + 1, by simpa using hj, by rwa [show i + (j + 1) = i + 1 + j by omega]⟩
          · rintro ⟨j, hj, h⟩
            cases j with
            | zero => simp [h1, h2] at h
            | succ j => exact ⟨j, by simpa using hj, by rwa [show i + 1 + j = i + (j + 1) by omega]⟩
      · simp only [h1, h2, Bool.not_true, Bool.false_eq_true, if_false, Bool.not_false, if_true]
        refine ⟨by simp, by simp; exact ⟨0, by simp, .inr (by simpa using h2)⟩⟩
    · simp only [h1, Bool.not_false, if_true]
      refine ⟨by simp, by simp; exact ⟨0, by simp, .inl (by simpa using h1)⟩⟩

/-- all authorities could be digested -/
def Env.CasOk (env : Env) (cas : List Bytes) : Prop := ∀ j, j < cas.length → env.caNameOk j = true ∧ env.caUpdOk j = true

theorem finish_ok (hs : Sha H) (acc : Bytes) (h1 : env.CasOk c.cas) (h2 : env.finalOk = true) :
    finish H env log c acc = (.mdFree :: log, { c with sid := some (H (acc ++ (c.cas.map H).flatten)) }, true) := by
  unfold finish
  have hd := digestCas_spec (H := H) (env := env) c.cas 0 acc
  split
  · next e =>
    obtain ⟨j, hj, h⟩ := hd.2.mp e
    have := h1 j hj
    rw [Nat.zero_add] at h
    rcases h with h | h <;> rw [h] at this <;> simp at this
  · next r e =>
    have hl : (H r).length ≤ 32 := by rw [hs r]; omega
    simp [h2, setSid, hl, hd.1 r e]
    rw [hd.1 r e] at hl; simp [hl]

theorem finish_fail (acc : Bytes) (h : ¬ (env.CasOk c.cas ∧ env.finalOk = true)) : finish H env log c acc = (.mdFree :: log, c, false) := by
  unfold finish
  have hd := digestCas_spec (H := H) (env := env) c.cas 0 acc
  split
  · rfl
  · next r e =>
    by_cases h2 : env.finalOk = true
    · exfalso
      refine h ⟨fun j hj => ?_, h2⟩
      have hn : ¬ (digestCas H env c.cas 0 acc = none) := by rw [e]; simp
      rw [hd.2] at hn
      constructor
      · cases hx : env.caNameOk j with
        | true => rfl
        | false => exact absurd ⟨j, hj, .inl (by rwa [Nat.zero_add])⟩ hn
      · cases hx : env.caUpdOk j with
        | true => rfl
        | false => exact absurd ⟨j, hj, .inr (by rwa [Nat.zero_add])⟩ hn
    · simp [h2]

/-- the digest can be computed -/
def Env.Computes (env : Env) (cas : List Bytes) : Prop := env.mdOk = true ∧ env.initOk = true ∧ env.nameOk = true ∧ env.finalOk = true ∧ env.CasOk cas

/-! ## The session id context -/

/-- **C64 (file).** The session id context can be set exactly if OpenSSL can compute the digest; the context is otherwise left as it was. -/
theorem sid_file_iff (hs : Sha H) (name : Bytes) :
    ((fromFile H env log c name).2.2 = true ↔ env.Computes c.cas) ∧ ((fromFile H env log c name).2.2 = false → (fromFile H env log c name).2.1 = c) := by
  unfold fromFile Env.Computes
  by_cases h1 : env.mdOk = true <;> by_cases h2 : env.initOk = true <;> by_cases h3 : env.nameOk = true <;> simp [h1, h2, h3]
  by_cases h4 : env.CasOk c.cas ∧ env.finalOk = true
  · cases env.file name with
    | none => simp [finish_ok hs, h4.1, h4.2]
    | some d => simp [finish_ok hs, h4.1, h4.2]
  · have h5 : ¬ (env.finalOk = true ∧ env.CasOk c.cas) := fun h => h4 ⟨h.2, h.1⟩
    cases env.file name with
    | none => simp [finish_fail _ h4, h5]
    | some d => simp [finish_fail _ h4, h5]

/-- **C64 (file).** If `EVP_DigestUpdate` does not fail, it is the digest of the name, of the first MiB of the file and of the digests of the authorities, and nothing else of the context changes. -/
theorem sid_file_exact (hs : Sha H) (hc : ∀ i, env.chunkOk i = true) (name : Bytes) (h : (fromFile H env log c name).2.2 = true) :
    (fromFile H env log c name).2.1 = { c with sid := some (H (fileInput H name (env.file name) c.cas)) } := by
  obtain ⟨h1, h2, h3, h4, h5⟩ := (sid_file_iff hs name).1.mp h
  unfold fromFile fileInput
  simp only [h1, h2, h3, Bool.not_true, Bool.false_eq_true, if_false]
  cases env.file name with
  | none => simp [finish_ok hs _ h5 h4]
  | some d =>
    obtain ⟨n, e1, _, e2⟩ := readLoop_spec (env := env) d 0 0 name (.inl ⟨0, rfl⟩)
    simp [finish_ok hs _ h5 h4, e1, e2 hc]

/-- **C64 (file, whatever fails).** At most a MiB of the file is read, and what is digested is the name and a prefix of the file. -/
theorem sid_file_any (hs : Sha H) (name : Bytes) (h : (fromFile H env log c name).2.2 = true) :
    ∃ n, n ≤ 1048576 ∧ (fromFile H env log c name).2.1 = { c with sid := some (H (name ++ ((env.file name).getD []).take n ++ (c.cas.map H).flatten)) } := by
  obtain ⟨h1, h2, h3, h4, h5⟩ := (sid_file_iff hs name).1.mp h
  unfold fromFile
  simp only [h1, h2, h3, Bool.not_true, Bool.false_eq_true, if_false]
  cases env.file name with
  | none => exact ⟨0, by omega, by simp [finish_ok hs _ h5 h4]⟩
  | some d =>
    obtain ⟨n, e1, hn, _⟩ := readLoop_spec (env := env) d 0 0 name (.inl ⟨0, rfl⟩)
    exact ⟨n, by omega, by simp [finish_ok hs _ h5 h4, e1]⟩

/-- **C64 (text).** The same for a text: the digest of the text up to its first zero byte and of the digests of the authorities. -/
theorem sid_text (hs : Sha H) (text : Bytes) :
    ((fromBuffer H env log c text).2.2 = true ↔ env.Computes c.cas) ∧
    (fromBuffer H env log c text).2.1 = if (fromBuffer H env log c text).2.2 = true then { c with sid := some (H (textInput H text c.cas)) } else c := by
  rw [show textInput H text c.cas = cstr text ++ (c.cas.map H).flatten from by rw [cstr_eq]; rfl]
  unfold fromBuffer Env.Computes
  by_cases h1 : env.mdOk = true <;> by_cases h2 : env.initOk = true <;> by_cases h3 : env.nameOk = true <;> simp [h1, h2, h3]
  by_cases h4 : env.CasOk c.cas ∧ env.finalOk = true
  · simp [finish_ok hs, h4.1, h4.2]
  · simp [finish_fail _ h4]; exact fun a b => h4 ⟨b, a⟩

/-! ## Nothing is left behind -/

theorem clean_md (h : Clean log) : Clean (.mdFree :: .mdNew :: log) := by
  obtain ⟨a, b, d, e⟩ := h
  refine ⟨?_, ?_, ?_, ?_⟩ <;> simp_all [mds, files, ctxs, isOpen, Sane, List.countP_cons] <;> omega

theorem clean_file {name : Bytes} (h : Clean log) : Clean (.mdFree :: .fileClose :: .fileOpen name :: .mdNew :: log) := by
  obtain ⟨a, b, d, e⟩ := h
  refine ⟨?_, ?_, ?_, ?_⟩ <;> simp_all [mds, files, ctxs, isOpen, Sane, List.countP_cons] <;> omega

theorem finish_log (acc : Bytes) : (finish H env log c acc).1 = .mdFree :: log := by
  unfold finish; split
  · rfl
  · split <;> rfl

theorem fromFile_log (name : Bytes) : (fromFile H env log c name).1 = log ∨ (fromFile H env log c name).1 = .mdFree :: .mdNew :: log ∨
    (fromFile H env log c name).1 = .mdFree :: .fileClose :: .fileOpen name :: .mdNew :: log := by
  unfold fromFile
  by_cases h1 : env.mdOk = true <;> by_cases h2 : env.initOk = true <;> by_cases h3 : env.nameOk = true <;> simp [h1, h2, h3]
  cases env.file name with
  | none => simp [finish_log]
  | some d => simp [finish_log]

theorem fromBuffer_log (text : Bytes) : (fromBuffer H env log c text).1 = log ∨ (fromBuffer H env log c text).1 = .mdFree :: .mdNew :: log := by
  unfold fromBuffer
  by_cases h1 : env.mdOk = true <;> by_cases h2 : env.initOk = true <;> by_cases h3 : env.nameOk = true <;> simp [h1, h2, h3, finish_log]

/-- the contexts not yet released are the same -/
theorem ctxs_md : ctxs (.mdFree :: .mdNew :: log) = ctxs log := by simp [ctxs]
theorem ctxs_file {name : Bytes} : ctxs (.mdFree :: .fileClose :: .fileOpen name :: .mdNew :: log) = ctxs log := by simp [ctxs]

/-- **C64 (digests and files).** On every path the digest is released once and the file closed once. -/
theorem sid_clean (h : Clean log) (name : Bytes) : Clean (fromFile H env log c name).1 ∧ Clean (fromBuffer H env log c name).1 := by
  constructor
  · rcases fromFile_log (H := H) (env := env) (log := log) (c := c) name with e | e | e <;> rw [e]
    · exact h
    · exact clean_md h
    · exact clean_file h
  · rcases fromBuffer_log (H := H) (env := env) (log := log) (c := c) name with e | e <;> rw [e]
    · exact h
    · exact clean_md h

theorem clean_new (h : Clean log) : Clean (.ctxNew :: log) ∧ ctxs (.ctxNew :: log) = ctxs log + 1 := by
  obtain ⟨a, b, d, e⟩ := h
  refine ⟨⟨?_, ?_, ?_, ?_⟩, ?_⟩ <;> simp_all [mds, files, ctxs, isOpen, Sane, List.countP_cons] <;> omega

theorem clean_free (h : Clean log) (hc : 0 < ctxs log) : Clean (.ctxFree :: log) ∧ ctxs (.ctxFree :: log) = ctxs log - 1 := by
  obtain ⟨a, b, d, e⟩ := h
  refine ⟨⟨?_, ?_, ?_, ?_⟩, ?_⟩ <;> simp_all [mds, files, ctxs, isOpen, Sane, List.countP_cons] <;> omega

theorem postInit_clean (h : Clean log) (hc : 0 < ctxs log) (caPath caFile : Option Bytes) :
    Clean (postInit env log c caPath caFile).1 ∧ ctxs (postInit env log c caPath caFile).1 = ctxs log - 1 + (if (postInit env log c caPath caFile).2.isSome then 1 else 0) := by
  have hf := clean_free h hc
  have h1 : ctxs log = ctxs log - 1 + 1 := by omega
  unfold postInit
  split
  · simp [hf.1, hf.2]
  · split
    · split
      · exact ⟨h, by simpa using h1⟩
      · simp [hf.1, hf.2]
    · exact ⟨h, by simpa using h1⟩

/-- **C64 (contexts).** Every maker of a context gives one to its caller or leaves none behind. -/
theorem ctx_clean (h : Clean log) (cert : Option Bytes) (text key : Bytes) (caPath caFile : Option Bytes) :
    (∀ r, r = newServer H env log cert key caPath caFile ∨ r = newServer2 H env log text caPath caFile ∨ r = newClient env log caPath caFile →
      Clean r.1 ∧ ctxs r.1 = ctxs log + (if r.2.isSome then 1 else 0)) := by
  have hpos : 0 ≤ ctxs log := h.2.2.1
  have hn := clean_new h
  rintro r (rfl | rfl | rfl)
  · unfold newServer
    split
    · simp [h]
    · have key1 : Clean (loadCertKey H env (.ctxNew :: log) {} cert key).1 ∧ ctxs (loadCertKey H env (.ctxNew :: log) {} cert key).1 = ctxs log + 1 := by
        unfold loadCertKey
        dsimp only
        generalize certName cert key = nm
        split
        · exact hn
        · split
          · exact hn
          · refine ⟨(sid_clean hn.1 nm).1, ?_⟩
            rcases fromFile_log (H := H) (env := env) (log := .ctxNew :: log) (c := { cert := some nm, key := some key }) nm with e | e | e <;> rw [e]
            · exact hn.2
            · rw [ctxs_md]; exact hn.2
            · rw [ctxs_file]; exact hn.2
      split
      · next l c' e =>
        rw [e] at key1
        have := clean_free key1.1 (by have := key1.2; simp only at *; omega)
        refine ⟨this.1, ?_⟩
        rw [this.2, key1.2]; simp
      · next l c' e =>
        rw [e] at key1
        have := postInit_clean (env := env) (c := c') key1.1 (by have := key1.2; simp only at *; omega) caPath caFile
        refine ⟨this.1, ?_⟩
        rw [this.2, key1.2]; simp
  · unfold newServer2
    split
    · simp [h]
    · have k1 := (sid_clean (H := H) (env := env) (c := {}) hn.1 text).2
      have k2 : ctxs (fromBuffer H env (.ctxNew :: log) {} text).1 = ctxs log + 1 := by
        rcases fromBuffer_log (H := H) (env := env) (log := .ctxNew :: log) (c := {}) text with e | e <;> rw [e]
        · exact hn.2
        · rw [ctxs_md]; exact hn.2
      have := postInit_clean (env := env) (c := (fromBuffer H env (.ctxNew :: log) {} text).2.1) k1 (by omega) caPath caFile
      refine ⟨this.1, ?_⟩
      simp only
      rw [this.2, k2]; simp
  · have hf := clean_free hn.1 (by have := hn.2; omega)
    unfold newClient
    split
    · simp [h]
    · dsimp only
      split
      · split
        · exact ⟨hn.1, by simpa using hn.2⟩
        · refine ⟨hf.1, ?_⟩
          rw [hf.2, hn.2]; simp
      · exact ⟨hn.1, by simpa using hn.2⟩

/-! ## Servers -/

/-- the file of the certificate: the one given, or the file of the key if none or an empty name is given -/
def certOf (cert : Option Bytes) (key : Bytes) : Bytes := if cert.getD [] = [] then key else cert.getD []

theorem certName_eq (cert : Option Bytes) (key : Bytes) : certName cert key = certOf cert key := by
  unfold certName certOf
  cases cert with
  | none => rfl
  | some l => cases l <;> simp

/-- everything `kgl_ssl_ctx_new_server` needs works -/
def Env.Serves (env : Env) (cert : Option Bytes) (key : Bytes) (caPath caFile : Option Bytes) : Prop :=
  env.ctxOk = true ∧ env.chainFile (certOf cert key) = true ∧ env.keyFile key = true ∧ env.Computes [] ∧ env.checkKey = true ∧ (caPath.isSome ∨ caFile.isSome → env.caOk = true)

/-- the context a server gets -/
def serverCtx (cert key sid : Bytes) (caPath caFile : Option Bytes) : Ctx :=
  if caPath.isSome ∨ caFile.isSome then { sid := some sid, cert := some cert, key := some key, verify := (true, true), ca := some (caFile, caPath) }
  else { sid := some sid, cert := some cert, key := some key }

/-- **C64 (`kgl_ssl_ctx_new_server`).** A context is returned exactly if both files are good, fit, the digest could be computed and, if authorities are given, these could be loaded. It then has the certificate and the key
of the files, demands client certificates exactly if authorities are given, and its session id context is the digest of the name and the first MiB of the certificate file. -/
theorem new_server (hs : Sha H) (hc : ∀ i, env.chunkOk i = true) (cert : Option Bytes) (key : Bytes) (caPath caFile : Option Bytes) :
    ((newServer H env log cert key caPath caFile).2.isSome = true ↔ env.Serves cert key caPath caFile) ∧
    ∀ r, (newServer H env log cert key caPath caFile).2 = some r →
      r = serverCtx (certOf cert key) key (H (fileInput H (certOf cert key) (env.file (certOf cert key)) [])) caPath caFile := by
  unfold newServer loadCertKey Env.Serves
  dsimp only
  rw [certName_eq]
  generalize certOf cert key = nm
  by_cases h1 : env.ctxOk = true
  · by_cases h2 : env.chainFile nm = true
    · by_cases h3 : env.keyFile key = true
      · simp only [h1, h2, h3, Bool.not_true, Bool.false_eq_true, if_false, true_and]
        have hi := (sid_file_iff (env := env) (log := .ctxNew :: log) (c := { cert := some nm, key := some key }) hs nm).1
        have he := sid_file_exact (env := env) (log := .ctxNew :: log) (c := { cert := some nm, key := some key }) hs hc nm
        generalize fromFile H env (.ctxNew :: log) { cert := some nm, key := some key } nm = z at *
        obtain ⟨l, c', ok⟩ := z
        cases ok with
        | false =>
          have : ¬ env.Computes [] := fun h => by simpa using hi.mpr h
          simp [this]
        | true =>
          have hcomp : env.Computes [] := hi.mp rfl
          have hctx := he rfl
          dsimp only at hctx ⊢
          subst hctx
          simp only [hcomp, true_and]
          unfold postInit serverCtx
          by_cases h4 : env.checkKey = true
          · by_cases h5 : caPath.isSome = true ∨ caFile.isSome = true
            · have h5' : (caPath.isSome || caFile.isSome) = true := by simpa using h5
              by_cases h6 : env.caOk = true
              · simp [h4, h5, h5', h6]
              · simp [h4, h5, h5', h6]
            · have h5' : (caPath.isSome || caFile.isSome) = false := by simpa using h5
              simp only [h4, Bool.not_true, Bool.false_eq_true, if_false, h5', h5]
              simp
          · simp [h4]
      · simp [h1, h2, h3]
    · simp [h1, h2]
  · simp [h1]

theorem serverCtx_sid (a b d : Bytes) (p f : Option Bytes) : (serverCtx a b d p f).sid = some d := by unfold serverCtx; split <;> rfl

/-- **C64 (whose sessions are accepted).** A server accepts the sessions of another one exactly if the names of the certificate files followed by the first MiB of their contents are the same (unless SHA-1 collides on them). -/
theorem server_resume {env' : Env} {log' : List Ev} (hs : Sha H) (hc : ∀ i, env.chunkOk i = true) (hc' : ∀ i, env'.chunkOk i = true) {cert cert' : Option Bytes} {key key' : Bytes} {p f p' f' : Option Bytes}
    {a b : Ctx} (ha : (newServer H env log cert key p f).2 = some a) (hb : (newServer H env' log' cert' key' p' f').2 = some b)
    (hcol : H (fileInput H (certOf cert key) (env.file (certOf cert key)) []) = H (fileInput H (certOf cert' key') (env'.file (certOf cert' key')) []) →
      fileInput H (certOf cert key) (env.file (certOf cert key)) [] = fileInput H (certOf cert' key') (env'.file (certOf cert' key')) []) :
    CanResume a b ↔ certOf cert key ++ ((env.file (certOf cert key)).getD []).take 1048576 = certOf cert' key' ++ ((env'.file (certOf cert' key')).getD []).take 1048576 := by
  rw [(new_server hs hc cert key p f).2 a ha, (new_server hs hc' cert' key' p' f').2 b hb]
  simp only [CanResume, serverCtx_sid, Option.some.injEq]
  constructor
  · intro h; simpa [fileInput] using hcol h
  · intro h; simp only [fileInput, h]

/-- **C64 (renewed certificates).** Two contexts made at different times from the same certificate file: the later one accepts the sessions of the earlier one exactly if the first MiB of the file has not changed. -/
theorem server_renewed {env' : Env} {log' : List Ev} (hs : Sha H) (hc : ∀ i, env.chunkOk i = true) (hc' : ∀ i, env'.chunkOk i = true) {cert : Option Bytes} {key : Bytes} {p f p' f' : Option Bytes}
    {a b : Ctx} {x y : Bytes} (ha : (newServer H env log cert key p f).2 = some a) (hb : (newServer H env' log' cert key p' f').2 = some b)
    (hx : env.file (certOf cert key) = some x) (hy : env'.file (certOf cert key) = some y)
    (hcol : H (certOf cert key ++ x.take 1048576) = H (certOf cert key ++ y.take 1048576) → certOf cert key ++ x.take 1048576 = certOf cert key ++ y.take 1048576) :
    CanResume a b ↔ x.take 1048576 = y.take 1048576 := by
  rw [server_resume hs hc hc' ha hb (by simpa [fileInput, hx, hy] using hcol), hx, hy]
  simp

/-- **C64 (contexts of the program).** `kgl_ssl_ctx_load_cert_key` on a context that has a list of authorities: the same name and content, and no collisions: sessions are shared exactly if the lists are the same. -/
theorem load_resume {env' : Env} {log' : List Ev} {c' : Ctx} (hs : Sha H) (hc : ∀ i, env.chunkOk i = true) (hc' : ∀ i, env'.chunkOk i = true) {name : Bytes}
    (ha : (fromFile H env log c name).2.2 = true) (hb : (fromFile H env' log' c' name).2.2 = true) (hf : env.file name = env'.file name)
    (hcol : ∀ x y, H x = H y → x ∈ fileInput H name (env.file name) c.cas :: c.cas → y ∈ fileInput H name (env.file name) c'.cas :: c'.cas → x = y) :
    CanResume (fromFile H env log c name).2.1 (fromFile H env' log' c' name).2.1 ↔ c.cas = c'.cas := by
  rw [sid_file_exact hs hc name ha, sid_file_exact hs hc' name hb, ← hf]
  simp only [CanResume, Option.some.injEq]
  constructor
  · intro h
    have h1 := hcol _ _ h (by simp) (by simp)
    simp only [fileInput, List.append_cancel_left_eq] at h1
    have hcol' : ∀ x y, H x = H y → x ∈ c.cas → y ∈ c'.cas → x = y := fun x y e hx hy => hcol x y e (by simp [hx]) (by simp [hy])
    clear h hcol ha hb
    generalize c.cas = l at *
    generalize c'.cas = l' at *
    induction l generalizing l' with
    | nil =>
      cases l' with
      | nil => rfl
      | cons b l' =>
        have := congrArg List.length h1
        simp [hs b] at this
        omega
    | cons a l ih =>
      cases l' with
      | nil =>
        have := congrArg List.length h1
        simp [hs a] at this
        try omega
      | cons b l' =>
        simp only [List.map_cons, List.flatten_cons] at h1
        have h2 := List.append_inj h1 (by rw [hs a, hs b])
        have e := hcol' a b h2.1 (by simp) (by simp)
        subst e
        rw [ih l' h2.2 (fun x y e hx hy => hcol' x y e (by simp [hx]) (by simp [hy]))]
  · intro h; rw [h]

/-- **C64 (`kgl_ssl_ctx_new_server2`).** The session id context is the digest of the text, or missing if it could not be computed; client certificates are demanded exactly if authorities are given. -/
theorem new_server2 (hs : Sha H) (text : Bytes) (caPath caFile : Option Bytes) {r : Ctx} (h : (newServer2 H env log text caPath caFile).2 = some r) :
    (env.Computes [] → r.sid = some (H (beforeZero text))) ∧ (¬ env.Computes [] → r.sid = none) ∧
    (r.verify = if caPath.isSome ∨ caFile.isSome then (true, true) else (false, false)) ∧ (r.ca.isSome = true ↔ caPath.isSome = true ∨ caFile.isSome = true) := by
  have ht := sid_text (env := env) (log := .ctxNew :: log) (c := {}) hs text
  unfold newServer2 at h
  dsimp only at h
  generalize fromBuffer H env (.ctxNew :: log) {} text = z at *
  obtain ⟨l, c', ok⟩ := z
  dsimp only at ht h
  split at h
  · simp at h
  · have hsid : (env.Computes [] → c'.sid = some (H (beforeZero text))) ∧ (¬ env.Computes [] → c'.sid = none) ∧ c'.verify = (false, false) ∧ c'.ca = none := by
      rw [ht.2]
      have h1 := ht.1
      cases ok with
      | false =>
        have h1 : ¬ env.Computes [] := by simpa using h1
        exact ⟨fun h => absurd h h1, fun _ => rfl, rfl, rfl⟩
      | true =>
        have h1 : env.Computes [] := by simpa using h1
        exact ⟨fun _ => by simp [textInput], fun h => absurd h1 h, rfl, rfl⟩
    unfold postInit at h
    split at h
    · simp at h
    · split at h
      · next h5 =>
        have h5' : caPath.isSome = true ∨ caFile.isSome = true := by simpa using h5
        split at h
        · simp only [Option.some.injEq] at h; subst h
          exact ⟨hsid.1, hsid.2.1, by rw [if_pos h5'], by simp only [h5', Option.isSome_some]⟩
        · simp at h
      · next h5 =>
        have h5' : ¬ (caPath.isSome = true ∨ caFile.isSome = true) := by simpa using h5
        simp only [Option.some.injEq] at h; subst h
        refine ⟨hsid.1, hsid.2.1, by rw [if_neg h5']; exact hsid.2.2.1, ?_⟩
        rw [hsid.2.2.2]; simp only [Option.isSome_none, Bool.false_eq_true, false_iff]; exact h5'

/-- **C64 (`kgl_ssl_ctx_new_client`).** A context is returned exactly if it could be made and the authorities, if given, could be loaded; the server's certificate is verified exactly if authorities are given. -/
theorem new_client (caPath caFile : Option Bytes) :
    ((newClient env log caPath caFile).2.isSome = true ↔ env.ctxOk = true ∧ (caPath.isSome ∨ caFile.isSome → env.caOk = true)) ∧
    ∀ r, (newClient env log caPath caFile).2 = some r → r.verify = (caPath.isSome || caFile.isSome, false) ∧
      r.ca = if caPath.isSome ∨ caFile.isSome then some (caFile, caPath) else none := by
  unfold newClient setSid
  have hl : ¬ clientId.length ≤ 32 := by decide
  by_cases h1 : env.ctxOk = true
  · by_cases h5 : caPath.isSome = true ∨ caFile.isSome = true
    · have h5' : (caPath.isSome || caFile.isSome) = true := by simpa using h5
      by_cases h6 : env.caOk = true
      · simp [h1, h5, h5', h6, hl]
      · simp [h1, h5, h5', h6]
    · have h5' : (caPath.isSome || caFile.isSome) = false := by simpa using h5
      simp only [h1, h5, h5', hl, Bool.not_true, Bool.false_eq_true, if_false]
      simp
  · simp [h1]

/-! ## Non-vacuity -/

/-- a stand-in for SHA-1 that shows what was digested: the first 20 bytes, filled up -/
def toy (b : Bytes) : Bytes := (b ++ List.replicate 20 0).take 20

theorem toy_sha : Sha toy := by intro b; simp [toy]

def disk : Env := { file := fun n => if n = [97] then some [1, 2, 3] else none }

example : newServer toy disk [] (some [97]) [98] none (some [99]) =
    ([.mdFree, .fileClose, .fileOpen [97], .mdNew, .ctxNew],
     some { sid := some (toy [97, 1, 2, 3]), cert := some [97], key := some [98], verify := (true, true), ca := some (some [99], none) }) := by
  simp [newServer, loadCertKey, certName, fromFile, disk, readLoop, finish, digestCas, setSid, toy_sha _, postInit]

/-- the digest of a context with two authorities -/
example : (fromFile toy disk [] { cas := [[5], [6]] } [97]).2.1.sid = some (toy ([97, 1, 2, 3] ++ toy [5] ++ toy [6])) := by
  simp [fromFile, disk, readLoop, finish, digestCas, setSid, toy_sha _]

/-- a failure: the context is released -/
example : newServer toy { disk with finalOk := false } [] (some [97]) [98] none none = ([.ctxFree, .mdFree, .fileClose, .fileOpen [97], .mdNew, .ctxNew], none) := by
  simp [newServer, loadCertKey, certName, fromFile, disk, readLoop, finish, digestCas]

/-! ## Findings -/

/-- **Finding (C64).** The authorities given to `kgl_ssl_ctx_new_server` are loaded after the digest was computed, and loading them does not fill the list the digest is computed from (`SSL_CTX_load_verify_locations` does not set
the client CA list): two servers with the same certificate accept each other's sessions whatever authorities they trust, even if one of them does not ask for client certificates at all.  A client that was accepted under one
set of authorities (or without a certificate) can resume its session where another set is demanded. -/
theorem authorities_not_separated {env : Env} (hs : Sha H) (hc : ∀ i, env.chunkOk i = true) {log' : List Ev} {cert : Option Bytes} {key : Bytes} {p f p' f' : Option Bytes} {a b : Ctx}
    (ha : (newServer H env log cert key p f).2 = some a) (hb : (newServer H env log' cert key p' f').2 = some b) : CanResume a b := by
  rw [(new_server hs hc cert key p f).2 a ha, (new_server hs hc cert key p' f').2 b hb]
  simp [CanResume, serverCtx_sid]

/-- **Finding (C64).** `kgl_ssl_ctx_new_server2` digests the text as given: if the certificate is given by the name of a file, a renewed certificate keeps its session id context; and with an empty text (the key's text then has both,
src/kgl_ssl.c:615-617) all servers have the same one. -/
theorem text_name_not_content {env env' : Env} (hs : Sha H) (h : env.Computes []) (h' : env'.Computes []) {log' : List Ev} {text : Bytes} {p f p' f' : Option Bytes} {a b : Ctx}
    (ha : (newServer2 H env log text p f).2 = some a) (hb : (newServer2 H env' log' text p' f').2 = some b) : CanResume a b := by
  rw [CanResume, (new_server2 hs text p f ha).1 h, (new_server2 hs text p' f' hb).1 h']

/-- **Finding (C64).** Name and content are not separated in what is digested: the file "a" that begins with "b" and the file "ab" can have the same session id context. -/
theorem name_runs_into_content : fileInput H [97] (some [98, 99]) [] = fileInput H [97, 98] (some [99]) [] := rfl

/-- **Finding (C64).** An `EVP_DigestUpdate` that fails for a block of the file only ends the loop: the function goes on and returns true, and the session id context no longer depends on the certificate. -/
theorem failed_update_ignored (hs : Sha H) {name x : Bytes} (hx : env.file name = some x) (h : env.Computes c.cas) (h0 : env.chunkOk 0 = false) :
    fromFile H env log c name = (.mdFree :: .fileClose :: .fileOpen name :: .mdNew :: log, { c with sid := some (H (name ++ (c.cas.map H).flatten)) }, true) := by
  obtain ⟨h1, h2, h3, h4, h5⟩ := h
  unfold fromFile
  simp only [h1, h2, h3, hx, Bool.not_true, Bool.false_eq_true, if_false]
  have : readLoop env x 0 0 name = name := by unfold readLoop; simp [h0]
  rw [this, finish_ok hs _ h5 h4]

/-- **Finding (C64).** The session id context of a client's context has 100 bytes, more than the 32 OpenSSL takes: it is refused, the error is not looked at (and stays in OpenSSL's error queue), and the context has none. -/
theorem client_id_refused (caPath caFile : Option Bytes) : ∀ r, (newClient env log caPath caFile).2 = some r → r.sid = none := by
  unfold newClient setSid
  have hl : ¬ clientId.length ≤ 32 := by decide
  simp only [hl, if_false]
  intro r
  split
  · simp
  · split
    · split
      · intro h; simp only [Option.some.injEq] at h; subst h; rfl
      · simp
    · intro h; simp only [Option.some.injEq] at h; subst h; rfl

end Kasync.Tls.Sid
