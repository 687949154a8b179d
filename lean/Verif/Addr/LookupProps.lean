import Verif.Addr.Lookup

/-! # Property theorems for addresses out of look-ups: C67 -/

namespace Kasync.Lookup

/-- What a user reads from an address: the port and the host. -/
def portOf (a : List Byte) : Nat := 256 * a.getD 2 0 + a.getD 3 0

def hostOf (a : List Byte) : List Byte := if familyOf a = PF_INET then (a.drop 4).take 4 else (a.drop 8).take 16

/-- A result of `getaddrinfo`: an IPv4 or IPv6 address that says so itself. -/
def Good (ai : Info) : Prop :=
  (ai.fam = PF_INET ∧ ai.addr.length = 16 ∨ ai.fam = PF_INET6 ∧ ai.addr.length = 28) ∧ ai.addr.take 2 = le16 ai.fam

theorem put_length {l b : List Byte} {k : Nat} (h : k + b.length ≤ l.length) : (put l k b).length = l.length := by
  simp [put]; omega

theorem put_get {l b : List Byte} {k : Nat} (h : k + b.length ≤ l.length) (i : Nat) :
    (put l k b)[i]? = if i < k then l[i]? else if i < k + b.length then b[i - k]? else l[i]? := by
  unfold put
  have e : (l.take k).length = k := by simp; omega
  by_cases h1 : i < k
  · rw [if_pos h1, List.append_assoc, List.getElem?_append_left (by omega), List.getElem?_take_of_lt h1]
  · rw [if_neg h1]
    by_cases h2 : i < k + b.length
    · rw [if_pos h2, List.getElem?_append_left (by simp; omega), List.getElem?_append_right (by omega), e]
    · rw [if_neg h2, List.getElem?_append_right (by simp; omega), List.getElem?_drop]
      congr 1
      simp; omega

theorem len_le {ai : Info} (h : Good ai) : 16 ≤ ai.addr.length ∧ ai.addr.length ≤ 28 := by
  rcases h.1 with ⟨-, h⟩ | ⟨-, h⟩ <;> omega

theorem fam_lt {ai : Info} (h : Good ai) : ai.fam = 2 ∨ ai.fam = 10 := by
  rcases h.1 with ⟨h, -⟩ | ⟨h, -⟩ <;> simp [h, PF_INET, PF_INET6]

theorem fam_bytes {ai : Info} (h : Good ai) : ai.addr[0]? = some ai.fam ∧ ai.addr[1]? = some 0 := by
  have h2 := h.2
  have e0 : (ai.addr.take 2)[0]? = ai.addr[0]? := List.getElem?_take_of_lt (by omega)
  have e1 : (ai.addr.take 2)[1]? = ai.addr[1]? := List.getElem?_take_of_lt (by omega)
  rw [← e0, ← e1, h2]
  rcases fam_lt h with h | h <;> rw [h] <;> exact ⟨rfl, rfl⟩

/-- The port is the only thing changed in the look-up result. -/
theorem setPort_get {ai : Info} (h : Good ai) (p i : Nat) :
    (setPort ai p).addr[i]? = if i = 2 then some (p / 256 % 256) else if i = 3 then some (p % 256) else ai.addr[i]? := by
  have hl := len_le h
  unfold setPort
  rw [put_get (by simp [be16]; omega)]
  by_cases h2 : i = 2
  · subst h2; simp [be16]
  · by_cases h3 : i = 3
    · subst h3; simp [be16]
    · simp only [be16, List.length_cons, List.length_nil]
      by_cases h1 : i < 2
      · simp [h1, h2, h3]
      · simp [h1, h2, h3]; intro; omega

theorem setPort_good {ai : Info} (h : Good ai) (p : Nat) : Good (setPort ai p) := by
  have hl := len_le h
  have e : (setPort ai p).addr.length = ai.addr.length := put_length (by simp [be16]; omega)
  refine ⟨by rw [e]; exact h.1, ?_⟩
  rw [show (setPort ai p).fam = ai.fam from rfl, ← h.2]
  apply List.ext_getElem?
  intro i
  by_cases hi : i < 2
  · rw [List.getElem?_take_of_lt hi, List.getElem?_take_of_lt hi, setPort_get h]
    simp [show i ≠ 2 by omega, show i ≠ 3 by omega]
  · rw [List.getElem?_eq_none (by simp; omega), List.getElem?_eq_none (by simp; omega)]

theorem copyOut_get {sz : Nat} {ai : Info} {to : List Byte} (h : Good ai) (hs : 28 ≤ sz) (ht : to.length = sz) (i : Nat) :
    (copyOut sz ai to)[i]? = if i < ai.addr.length then ai.addr[i]? else to[i]? := by
  have hl := len_le h
  unfold copyOut
  have e : min ai.addr.length sz = ai.addr.length := by omega
  simp only [e, List.take_length]
  rw [put_get (by omega)]
  simp

theorem copyOut_length {sz : Nat} {ai : Info} {to : List Byte} (h : Good ai) (hs : 28 ≤ sz) (ht : to.length = sz) :
    (copyOut sz ai to).length = sz := by
  have hl := len_le h
  unfold copyOut
  rw [put_length (by simp; omega), ht]

theorem setFamily_length {ai : Info} {to : List Byte} (ht : 2 ≤ to.length) : (setFamily ai to).length = to.length :=
  put_length (by simp [le16]; omega)

/-- **C67.** One thread alone: every byte of the address built is the look-up result's, but for the port, which is the one asked for; bytes beyond stay; and
the look-up result is left as it was but for its port. -/
theorem addr_build {sz : Nat} {ai : Info} {to : List Byte} (p : Nat) (h : Good ai) (hs : 28 ≤ sz) (ht : to.length = sz) :
    (build sz ai p to).2.length = sz ∧
    (∀ i, (build sz ai p to).2[i]? = if i = 2 then some (p / 256 % 256) else if i = 3 then some (p % 256)
      else if i < ai.addr.length then ai.addr[i]? else to[i]?) ∧
    (build sz ai p to).1.fam = ai.fam ∧
    (∀ i, (build sz ai p to).1.addr[i]? = if i = 2 then some (p / 256 % 256) else if i = 3 then some (p % 256) else ai.addr[i]?) := by
  have hl := len_le h
  have hf : (setFamily ai to).length = sz := by rw [setFamily_length (by omega), ht]
  have hg := setPort_good h p
  have he : (setPort ai p).addr.length = ai.addr.length := put_length (by simp [be16]; omega)
  refine ⟨copyOut_length hg hs hf, ?_, rfl, fun i => setPort_get h p i⟩
  intro i
  show (copyOut sz (setPort ai p) (setFamily ai to))[i]? = _
  rw [copyOut_get hg hs hf, setPort_get h, he]
  by_cases h2 : i = 2
  · subst h2; simp; omega
  · by_cases h3 : i = 3
    · subst h3; simp; omega
    · simp only [h2, h3, if_false]
      by_cases hi : i < ai.addr.length
      · simp [hi]
      · simp only [hi, if_false]
        unfold setFamily
        rw [put_get (by simp [le16]; omega)]
        simp [le16]
        omega

theorem familyOf_of {a : List Byte} {f : Nat} (h0 : a[0]? = some f) (h1 : a[1]? = some 0) : familyOf a = f := by
  simp [familyOf, List.getD_eq_getElem?_getD, h0, h1]

theorem portOf_of {a : List Byte} {p : Nat} (hp : p < 65536) (h2 : a[2]? = some (p / 256 % 256)) (h3 : a[3]? = some (p % 256)) : portOf a = p := by
  simp only [portOf, List.getD_eq_getElem?_getD, h2, h3, Option.getD_some]
  omega

/-- What must agree for the host to be the same. -/
theorem hostOf_of {a b : List Byte} (hf : familyOf a = familyOf b) (h : ∀ i, 4 ≤ i → i < (if familyOf b = PF_INET then 8 else 24) → a[i]? = b[i]?) :
    hostOf a = hostOf b := by
  unfold hostOf
  rw [hf]
  by_cases hb : familyOf b = PF_INET
  · simp only [hb, if_true] at h ⊢
    apply List.ext_getElem?; intro i
    by_cases hi : i < 4
    · rw [List.getElem?_take_of_lt hi, List.getElem?_take_of_lt hi, List.getElem?_drop, List.getElem?_drop]
      exact h _ (by omega) (by omega)
    · rw [List.getElem?_eq_none (by simp; omega), List.getElem?_eq_none (by simp; omega)]
  · simp only [hb, if_false] at h ⊢
    apply List.ext_getElem?; intro i
    by_cases hi : i < 16
    · rw [List.getElem?_take_of_lt hi, List.getElem?_take_of_lt hi, List.getElem?_drop, List.getElem?_drop]
      exact h _ (by omega) (by omega)
    · rw [List.getElem?_eq_none (by simp; omega), List.getElem?_eq_none (by simp; omega)]

/-- **C67.** The same read as an address: family and host are those of the look-up result, the port is the one asked for. -/
theorem addr_build_reads {sz : Nat} {ai : Info} {to : List Byte} {p : Nat} (hp : p < 65536) (h : Good ai) (hs : 28 ≤ sz) (ht : to.length = sz) :
    familyOf (build sz ai p to).2 = ai.fam ∧ portOf (build sz ai p to).2 = p ∧ hostOf (build sz ai p to).2 = hostOf ai.addr := by
  obtain ⟨-, hb, -, -⟩ := addr_build p h hs ht
  obtain ⟨f0, f1⟩ := fam_bytes h
  have hl := len_le h
  have e1 : familyOf (build sz ai p to).2 = ai.fam :=
    familyOf_of (by rw [hb, if_neg (by omega), if_neg (by omega), if_pos (by omega)]; exact f0)
      (by rw [hb, if_neg (by omega), if_neg (by omega), if_pos (by omega)]; exact f1)
  have e2 : familyOf ai.addr = ai.fam := familyOf_of f0 f1
  refine ⟨e1, portOf_of hp (by rw [hb]; rfl) (by rw [hb]; rfl), hostOf_of (by rw [e1, e2]) ?_⟩
  intro i h4 hi
  rw [hb, if_neg (by omega), if_neg (by omega), if_pos]
  rcases h.1 with ⟨hf, hl⟩ | ⟨hf, hl⟩
  · rw [e2, hf, if_pos rfl] at hi; omega
  · rw [e2, hf, if_neg (by decide)] at hi; omega

/-! ## Several threads -/

/-- What is true of a look-up result `a` used by several calls that began with `o`. -/
structure Like (o a : Info) (ports : List Nat) : Prop where
  good : Good a
  fam : a.fam = o.fam
  len : a.addr.length = o.addr.length
  rest : ∀ i, i ≠ 2 → i ≠ 3 → a.addr[i]? = o.addr[i]?
  port : a = o ∨ ∃ p ∈ ports, a.addr[2]? = some (p / 256 % 256) ∧ a.addr[3]? = some (p % 256)

structure Inv (sz : Nat) (o : Info) (s : St) : Prop where
  like : Like o s.ai (s.calls.map Call.port)
  len : ∀ c ∈ s.calls, c.to.length = sz
  touched : (∃ c ∈ s.calls, c.pc ≠ .begun) → ∃ p ∈ s.calls.map Call.port, s.ai.addr[2]? = some (p / 256 % 256) ∧ s.ai.addr[3]? = some (p % 256)
  fin : ∀ c ∈ s.calls, c.pc = .finished →
    familyOf c.to = o.fam ∧ hostOf c.to = hostOf o.addr ∧
    ∃ p ∈ s.calls.map Call.port, c.to[2]? = some (p / 256 % 256) ∧ c.to[3]? = some (p % 256)

/-- All threads pass objects of the right size. -/
def Sized (sz : Nat) : Op → Prop
  | .enter _ to => to.length = sz
  | _ => True

/-- Executions from a look-up result nobody has used. -/
inductive Reach (sz : Nat) (o : Info) : St → Prop where
  | init : Reach sz o { ai := o }
  | step {s s' : St} (op : Op) : Reach sz o s → Sized sz op → step sz s op = .ok s' → Reach sz o s'

theorem map_set_port {l : List Call} {i : Nat} {c d : Call} (hi : l[i]? = some c) (hp : d.port = c.port) :
    (l.set i d).map Call.port = l.map Call.port := by
  rw [List.map_set, hp]
  apply List.ext_getElem?; intro j
  rw [List.getElem?_set]
  split
  · next e => subst e; obtain ⟨h1, h2⟩ := List.getElem?_eq_some_iff.1 hi; simp [h1, h2]
  · rfl

theorem inv_reach {sz : Nat} {o : Info} (ho : Good o) (hs : 28 ≤ sz) {s : St} (h : Reach sz o s) : Inv sz o s := by
  induction h with
  | init =>
    exact ⟨⟨ho, rfl, rfl, fun _ _ _ => rfl, .inl rfl⟩, by simp, by simp, by simp⟩
  | step op hrch hz hst ih =>
    rename_i s s'
    cases op with
    | enter p to =>
      simp only [step, Res.ok.injEq] at hst; subst hst
      have mono : ∀ q ∈ s.calls.map Call.port, q ∈ (s.calls ++ [({ port := p, to := setFamily s.ai to } : Call)]).map Call.port := by
        intro q hq; rw [List.map_append]; exact List.mem_append.2 (.inl hq)
      refine ⟨⟨ih.like.good, ih.like.fam, ih.like.len, ih.like.rest, ?_⟩, ?_, ?_, ?_⟩
      · exact ih.like.port.imp id (fun ⟨q, hq, h⟩ => ⟨q, mono q hq, h⟩)
      · intro c hc
        rcases List.mem_append.1 hc with hc | hc
        · exact ih.len c hc
        · simp only [List.mem_singleton] at hc; subst hc
          have : to.length = sz := hz
          show (setFamily s.ai to).length = sz
          rw [setFamily_length (by omega), this]
      · rintro ⟨c, hc, hpc⟩
        rcases List.mem_append.1 hc with hc | hc
        · obtain ⟨q, hq, h⟩ := ih.touched ⟨c, hc, hpc⟩
          exact ⟨q, mono q hq, h⟩
        · simp only [List.mem_singleton] at hc; subst hc; exact absurd rfl hpc
      · intro c hc hpc
        rcases List.mem_append.1 hc with hc | hc
        · obtain ⟨h1, h2, q, hq, h⟩ := ih.fin c hc hpc
          exact ⟨h1, h2, q, mono q hq, h⟩
        · simp only [List.mem_singleton] at hc; subst hc; cases hpc
    | store i =>
      simp only [step] at hst
      split at hst
      · cases hst
      · next c hc =>
        split at hst
        · injection hst with hst; subst hst
          have hmp := map_set_port (d := { c with pc := .stored }) hc rfl
          have hmem : c.port ∈ s.calls.map Call.port := List.mem_map.2 ⟨c, List.mem_of_getElem? hc, rfl⟩
          have gp := setPort_get ih.like.good c.port
          have hp2 : (setPort s.ai c.port).addr[2]? = some (c.port / 256 % 256) := by rw [gp]; rfl
          have hp3 : (setPort s.ai c.port).addr[3]? = some (c.port % 256) := by rw [gp]; rfl
          have hl := len_le ih.like.good
          refine ⟨⟨setPort_good ih.like.good _, ih.like.fam, ?_, ?_, ?_⟩, ?_, ?_, ?_⟩
          · show (setPort s.ai c.port).addr.length = _
            rw [← ih.like.len]; exact put_length (by simp [be16]; omega)
          · intro j h2 h3
            show (setPort s.ai c.port).addr[j]? = _
            rw [gp, if_neg h2, if_neg h3]; exact ih.like.rest j h2 h3
          · right; dsimp only; rw [hmp]; exact ⟨_, hmem, hp2, hp3⟩
          · intro d hd
            rcases List.mem_or_eq_of_mem_set hd with hd | hd
            · exact ih.len d hd
            · subst hd; exact ih.len c (List.mem_of_getElem? hc)
          · intro _; dsimp only; rw [hmp]; exact ⟨_, hmem, hp2, hp3⟩
          · intro d hd hpc
            dsimp only at hd ⊢
            rw [hmp]
            rcases List.mem_or_eq_of_mem_set hd with hd | hd
            · exact ih.fin d hd hpc
            · subst hd; cases hpc
        · cases hst
    | copy i =>
      simp only [step] at hst
      split at hst
      · cases hst
      · next c hc =>
        split at hst
        · next hpc0 =>
          injection hst with hst; subst hst
          have hcm := List.mem_of_getElem? hc
          have hmp := map_set_port (d := { c with to := copyOut sz s.ai c.to, pc := .finished }) hc rfl
          have hcl := ih.len c hcm
          have cg := copyOut_get ih.like.good hs hcl
          have hl := len_le ih.like.good
          obtain ⟨q, hq, q2, q3⟩ := ih.touched ⟨c, hcm, by rw [hpc0]; intro h; cases h⟩
          refine ⟨?_, ?_, ?_, ?_⟩
          · dsimp only; rw [hmp]; exact ih.like
          · intro d hd
            rcases List.mem_or_eq_of_mem_set hd with hd | hd
            · exact ih.len d hd
            · subst hd; exact copyOut_length ih.like.good hs hcl
          · intro _; dsimp only; rw [hmp]; exact ⟨q, hq, q2, q3⟩
          · intro d hd hpc
            dsimp only at hd ⊢
            rw [hmp]
            rcases List.mem_or_eq_of_mem_set hd with hd | hd
            · exact ih.fin d hd hpc
            · subst hd
              dsimp only
              obtain ⟨f0, f1⟩ := fam_bytes ih.like.good
              obtain ⟨o0, o1⟩ := fam_bytes ho
              have e1 : familyOf (copyOut sz s.ai c.to) = o.fam := by
                rw [← ih.like.fam]
                exact familyOf_of (by rw [cg, if_pos (by omega)]; exact f0) (by rw [cg, if_pos (by omega)]; exact f1)
              have e2 : familyOf o.addr = o.fam := familyOf_of o0 o1
              refine ⟨e1, hostOf_of (by rw [e1, e2]) ?_, q, hq, by rw [cg, if_pos (by omega)]; exact q2, by rw [cg, if_pos (by omega)]; exact q3⟩
              intro j h4 hj
              rw [cg, if_pos]
              · exact ih.like.rest j (by omega) (by omega)
              · rw [ih.like.len]
                rcases ho.1 with ⟨hf, hl⟩ | ⟨hf, hl⟩
                · rw [e2, hf, if_pos rfl] at hj; omega
                · rw [e2, hf, if_neg (by decide)] at hj; omega
        · cases hst

/-- **C67.** Several threads building addresses from one shared look-up result: each gets the right family and host, and a port that one of them asked for. -/
theorem addr_build_shared {sz : Nat} {o : Info} (ho : Good o) (hs : 28 ≤ sz) {s : St} (h : Reach sz o s) {c : Call} (hc : c ∈ s.calls)
    (hf : c.pc = .finished) (hp : ∀ d ∈ s.calls, d.port < 65536) :
    familyOf c.to = o.fam ∧ hostOf c.to = hostOf o.addr ∧ ∃ d ∈ s.calls, portOf c.to = d.port := by
  obtain ⟨h1, h2, p, hm, p2, p3⟩ := (inv_reach ho hs h).fin c hc hf
  obtain ⟨d, hd, rfl⟩ := List.mem_map.1 hm
  exact ⟨h1, h2, d, hd, portOf_of (hp d hd) p2 p3⟩

/-- **C67.** So all is well as long as all users of a name ask for the same port. -/
theorem addr_build_one_port {sz : Nat} {o : Info} (ho : Good o) (hs : 28 ≤ sz) {s : St} (h : Reach sz o s) {c : Call} (hc : c ∈ s.calls)
    (hf : c.pc = .finished) {p : Nat} (hp : p < 65536) (hone : ∀ d ∈ s.calls, d.port = p) :
    familyOf c.to = o.fam ∧ hostOf c.to = hostOf o.addr ∧ portOf c.to = p := by
  obtain ⟨h1, h2, d, hd, h3⟩ := addr_build_shared ho hs h hc hf (fun d hd => by rw [hone d hd]; exact hp)
  exact ⟨h1, h2, by rw [h3, hone d hd]⟩

/-- **C67.** And whoever is not interrupted between storing the port and copying gets the port asked for. -/
theorem addr_build_undisturbed {sz : Nat} {o : Info} (ho : Good o) (hs : 28 ≤ sz) {s s1 s2 : St} (h : Reach sz o s) {i : Nat}
    (h1 : step sz s (.store i) = .ok s1) (h2 : step sz s1 (.copy i) = .ok s2) {c : Call} (hc : s.calls[i]? = some c) (hp : c.port < 65536) :
    ∃ d, s2.calls[i]? = some d ∧ d.port = c.port ∧ d.pc = .finished ∧ familyOf d.to = o.fam ∧ hostOf d.to = hostOf o.addr ∧ portOf d.to = c.port := by
  have hr1 := Reach.step (.store i) h trivial h1
  have hr2 := Reach.step (.copy i) hr1 trivial h2
  have hlt := (List.getElem?_eq_some_iff.1 hc).1
  have hg := (inv_reach ho hs h).like.good
  simp only [step, hc] at h1
  split at h1
  · injection h1 with h1; subst h1
    simp only [step, List.getElem?_set, hlt, if_true, Res.ok.injEq] at h2
    subst h2
    have hmem : ({ c with to := copyOut sz (setPort s.ai c.port) c.to, pc := .finished } : Call) ∈
        ((s.calls.set i { c with pc := .stored }).set i { c with to := copyOut sz (setPort s.ai c.port) c.to, pc := .finished }) :=
      List.mem_of_getElem? (i := i) (by simp [hlt])
    obtain ⟨f1, f2, -⟩ := (inv_reach ho hs hr2).fin _ hmem rfl
    have hcl := (inv_reach ho hs h).len c (List.mem_of_getElem? hc)
    have cg := copyOut_get (setPort_good hg c.port) hs hcl
    have hl := len_le (setPort_good hg c.port)
    refine ⟨{ c with to := copyOut sz (setPort s.ai c.port) c.to, pc := .finished }, by simp [hlt], rfl, rfl, f1, f2, portOf_of hp ?_ ?_⟩
    · rw [cg, if_pos (by omega), setPort_get hg]; rfl
    · rw [cg, if_pos (by omega), setPort_get hg]; rfl
  · cases h1

/-! ## Look-ups -/

/-- **C67.** `ksocket_getaddr` succeeds exactly when the resolver gives a result; it asks for exactly what it was asked, uses the first result with the port
asked for, and gives the results back; failing, it leaves the address alone. -/
theorem getaddr_spec (v6 : Bool) (r : Resolver) {sz : Nat} (hs : 28 ≤ sz) (host : String) {port : Nat} (hp : port < 65536) (fam flags : Nat) {to : List Byte}
    (ht : to.length = sz) :
    let ans := r host ⟨if v6 then fam else 2, flags⟩
    ((getaddr v6 r sz host port fam flags to).1 = true ↔ ∃ ai l, ans = some (ai :: l)) ∧
    ((getaddr v6 r sz host port fam flags to).1 = false → (getaddr v6 r sz host port fam flags to).2.1 = to) ∧
    ((getaddr v6 r sz host port fam flags to).2.2 = (getaddr v6 r sz host port fam flags to).1) ∧
    (∀ ai l, ans = some (ai :: l) → Good ai →
      familyOf (getaddr v6 r sz host port fam flags to).2.1 = ai.fam ∧ portOf (getaddr v6 r sz host port fam flags to).2.1 = port ∧
      hostOf (getaddr v6 r sz host port fam flags to).2.1 = hostOf ai.addr) := by
  dsimp only
  unfold getaddr
  dsimp only [PF_INET]
  cases hr : r host ⟨if v6 = true then fam else 2, flags⟩ with
  | none => simp
  | some l =>
    cases l with
    | nil => simp
    | cons ai l =>
      refine ⟨by simp, by simp, rfl, ?_⟩
      rintro ai' l' h hg
      injection h with h; injection h with h1 h2; subst h1 h2
      exact addr_build_reads hp hg hs ht

/-- The resolver and the namer agree on numeric addresses: the text of an address is understood as that address. -/
structure Agree (r : Resolver) (n : Namer) : Prop where
  back : ∀ f h t, n f h = some t → ∃ ai l, r t ⟨PF_UNSPEC, AI_NUMERICHOST⟩ = some (ai :: l) ∧ Good ai ∧ ai.fam = f ∧ hostOf ai.addr = h
  short : ∀ f h t, n f h = some t → t.length < 46

/-- An address of the library: IPv4 or IPv6, 16 bytes. -/
def GoodIp (a : IpAddr) : Prop := (a.fam = PF_INET ∨ a.fam = PF_INET6) ∧ a.data.length = 16

/-- The bytes that count. -/
def ipHost (a : IpAddr) : List Byte := if a.fam = PF_INET then a.data.take 4 else a.data

theorem ipaddrIp_eq (n : Namer) {sz : Nat} (hs : 28 ≤ sz) {ia : IpAddr} (h : GoodIp ia) (room : Nat) :
    ipaddrIp n sz ia room = match n ia.fam (ipHost ia) with
      | some t => if t.length < room then .ok (true, t) else if room = 0 then .ub else .ok (false, "")
      | none => if room = 0 then .ub else .ok (false, "") := by
  obtain ⟨hf, hd⟩ := h
  have hlen : (put (List.replicate sz 0) 0 (le16 ia.fam)).length = sz := by rw [put_length (by simp [le16]; omega)]; simp
  have key : ∀ a : List Byte, a = (if ia.fam = PF_INET6 then put (put (List.replicate sz 0) 0 (le16 ia.fam)) 8 (ia.data.take 16)
      else put (put (List.replicate sz 0) 0 (le16 ia.fam)) 4 (ia.data.take 4)) →
      familyOf a = ia.fam ∧ (if familyOf a = PF_INET then (a.drop 4).take 4 else (a.drop 8).take 16) = ipHost ia := by
    intro a ha
    rcases hf with hf | hf
    · rw [if_neg (by rw [hf]; decide)] at ha
      have g := fun i => put_get (l := put (List.replicate sz 0) 0 (le16 ia.fam)) (b := ia.data.take 4) (k := 4) (by simp [hlen]; omega) i
      rw [← ha] at g
      have e : familyOf a = ia.fam := by
        apply familyOf_of
        · rw [g, if_pos (by omega), put_get (by simp [le16]; omega)]; simp [le16, hf, PF_INET]
        · rw [g, if_pos (by omega), put_get (by simp [le16]; omega)]; simp [le16, hf, PF_INET]
      refine ⟨e, ?_⟩
      rw [e, if_pos hf]
      unfold ipHost; rw [if_pos hf]
      apply List.ext_getElem?; intro i
      by_cases hi : i < 4
      · rw [List.getElem?_take_of_lt hi, List.getElem?_drop, g, if_neg (by omega), if_pos (by simp; omega)]
        congr 1; omega
      · rw [List.getElem?_eq_none (by simp; omega), List.getElem?_eq_none (by simp; omega)]
    · rw [if_pos hf] at ha
      have g := fun i => put_get (l := put (List.replicate sz 0) 0 (le16 ia.fam)) (b := ia.data.take 16) (k := 8) (by simp [hlen]; omega) i
      rw [← ha] at g
      have e : familyOf a = ia.fam := by
        apply familyOf_of
        · rw [g, if_pos (by omega), put_get (by simp [le16]; omega)]; simp [le16, hf, PF_INET6]
        · rw [g, if_pos (by omega), put_get (by simp [le16]; omega)]; simp [le16, hf, PF_INET6]
      refine ⟨e, ?_⟩
      have hne : ¬ ia.fam = PF_INET := by rw [hf]; decide
      rw [e, if_neg hne]
      unfold ipHost; rw [if_neg hne]
      have ht : ia.data.take 16 = ia.data := List.take_of_length_le (by omega)
      rw [ht] at g
      apply List.ext_getElem?; intro i
      by_cases hi : i < 16
      · rw [List.getElem?_take_of_lt hi, List.getElem?_drop, g, if_neg (by omega), if_pos (by omega)]
        congr 1; omega
      · rw [List.getElem?_eq_none (by simp; omega), List.getElem?_eq_none (by omega)]
  obtain ⟨k1, k2⟩ := key _ rfl
  unfold ipaddrIp sockaddrIp nameinfo
  dsimp only
  rw [k2, k1]
  cases n ia.fam (ipHost ia) with
  | none => rfl
  | some t =>
    dsimp only
    by_cases ht : t.length < room
    · simp [ht]
    · simp [ht]

/-- **C67.** The text `ksocket_ipaddr_ip` writes for an address into a buffer of MAXIPLEN bytes is read by `ksocket_get_ipaddr` as the same address. -/
theorem ipaddr_text_round_trip {r : Resolver} {n : Namer} (ha : Agree r n) {sz : Nat} (hs : 28 ≤ sz) {ia : IpAddr} (h : GoodIp ia) {t : String}
    (ht : ipaddrIp n sz ia 46 = .ok (true, t)) {junk : List Byte} (hj : junk.length = sz) {to : IpAddr} (hto : to.data.length = 16) :
    (getIpaddr r sz t junk to).1 = true ∧ (getIpaddr r sz t junk to).2.fam = ia.fam ∧ ipHost (getIpaddr r sz t junk to).2 = ipHost ia := by
  rw [ipaddrIp_eq n hs h] at ht
  have hn : n ia.fam (ipHost ia) = some t := by
    split at ht
    · next t' hn =>
      split at ht
      · injection ht with ht; injection ht with _ ht; subst ht; exact hn
      · simp at ht
    · simp at ht
  obtain ⟨ai, l, e1, hg, hf, hh⟩ := ha.back _ _ _ hn
  have e2 : getaddr true r sz t 0 PF_UNSPEC AI_NUMERICHOST junk = (true, (build sz ai 0 junk).2, true) := by
    unfold getaddr; simp [e1]
  obtain ⟨b1, -, b3⟩ := addr_build_reads (by omega : 0 < 65536) hg hs hj
  unfold getIpaddr
  rw [e2]
  dsimp only
  rw [if_pos rfl]
  refine ⟨rfl, ?_, ?_⟩
  · unfold ipaddr; dsimp only; split <;> exact b1.trans hf
  · unfold ipaddr
    dsimp only
    rw [b1, hf]
    by_cases h4 : ia.fam = PF_INET
    · rw [if_pos h4]
      have h5 : hostOf (build sz ai 0 junk).2 = (((build sz ai 0 junk).2.drop 4).take 4) := by unfold hostOf; rw [if_pos (by rw [b1, hf, h4])]
      unfold ipHost
      rw [if_pos h4, if_pos h4]
      have h6 : ((build sz ai 0 junk).2.drop 4).take 4 = ia.data.take 4 := by
        rw [← h5, b3, hh]; unfold ipHost; rw [if_pos h4]
      dsimp only
      rw [h6]
      have : (ia.data.take 4).length = 4 := by simp [h.2]
      unfold put
      simp [this]
    · rw [if_neg h4]
      have h5 : hostOf (build sz ai 0 junk).2 = (((build sz ai 0 junk).2.drop 8).take 16) := by unfold hostOf; rw [if_neg (by rw [b1, hf]; exact h4)]
      unfold ipHost
      rw [if_neg h4, if_neg h4]
      show ((build sz ai 0 junk).2.drop 8).take 16 = ia.data
      rw [← h5, b3, hh]; unfold ipHost; rw [if_neg h4]

/-- **C67.** The text fits whenever the buffer has MAXIPLEN bytes; in a smaller one it is written completely or the call fails with an empty text. -/
theorem ipaddr_text_fits {r : Resolver} {n : Namer} (ha : Agree r n) {sz : Nat} (hs : 28 ≤ sz) {ia : IpAddr} (h : GoodIp ia) {room : Nat} (hr : 0 < room) :
    ∃ ok t, ipaddrIp n sz ia room = .ok (ok, t) ∧ t.length < room ∧ (ok = true → n ia.fam (ipHost ia) = some t) ∧ (ok = false → t = "") ∧
      (46 ≤ room → n ia.fam (ipHost ia) ≠ none → ok = true) := by
  rw [ipaddrIp_eq n hs h]
  cases hn : n ia.fam (ipHost ia) with
  | none => exact ⟨false, "", by dsimp only; rw [if_neg (by omega)], by simpa using hr, by simp, by simp, by simp⟩
  | some t =>
    dsimp only
    by_cases ht : t.length < room
    · exact ⟨true, t, by rw [if_pos ht], ht, by simp, by simp, by simp⟩
    · refine ⟨false, "", by rw [if_neg ht, if_neg (by omega)], by simpa using hr, by simp, by simp, ?_⟩
      intro h46; have := ha.short _ _ _ hn; omega

/-- **C67.** `ksocket_unix_addr`: a path that fits with its end is the path a reader finds. -/
theorem unix_addr_exact {n : Nat} {path : List Byte} (hz : ∀ b ∈ path, b ≠ 0) (h : path.length < n) :
    (unixAddr n path).1 = 0 ∧ (unixAddr n path).2.length = n ∧ cstr (unixAddr n path).2 = some path := by
  refine ⟨rfl, by simp [unixAddr]; omega, ?_⟩
  have e : (unixAddr n path).2 = path ++ List.replicate (n - path.length) 0 := by simp [unixAddr, List.take_of_length_le (by omega : path.length ≤ n)]
  rw [e]
  obtain ⟨k, hk⟩ : ∃ k, n - path.length = k + 1 := ⟨n - path.length - 1, by omega⟩
  rw [hk]; clear hk h e
  induction path with
  | nil => rfl
  | cons b l ih =>
    have hb : b ≠ 0 := hz b (by simp)
    have := ih (fun c hc => hz c (List.mem_cons_of_mem _ hc))
    cases b with
    | zero => exact absurd rfl hb
    | succ b => simp [cstr, this]

/-- **C67.** `ksocket_block` and `ksocket_no_block`, `ksocket_delay` and `ksocket_no_delay` (Linux) undo each other and change nothing else; small packets
kept from being held back for ever stay so. -/
theorem switches (o : Opts) :
    (noBlock o).nonblock = true ∧ (block o).nonblock = false ∧ noBlock (block o) = noBlock o ∧ block (noBlock o) = block o ∧
    (delay true o).cork = true ∧ noDelay true (delay true o) false = { o with cork := false } ∧
    (noDelay true (delay true (noDelay true o true)) false).nodelay = true := ⟨rfl, rfl, rfl, rfl, rfl, rfl, rfl⟩

/-! ## A concrete case -/

/-- 10.0.0.1, and ::1 -/
def four : Info := ⟨2, [2, 0, 0, 0, 10, 0, 0, 1, 0, 0, 0, 0, 0, 0, 0, 0]⟩
def six : Info := ⟨10, [10, 0, 0, 0, 0, 0, 0, 0, 0, 0, 0, 0, 0, 0, 0, 0, 0, 0, 0, 0, 0, 0, 0, 1, 0, 0, 0, 0]⟩

example : Good four ∧ Good six := ⟨⟨.inl ⟨rfl, rfl⟩, rfl⟩, ⟨.inr ⟨rfl, rfl⟩, rfl⟩⟩

/-- `addr_build_reads` -/
example : let a := (build 32 four 8080 (List.replicate 32 255)).2
    familyOf a = 2 ∧ portOf a = 8080 ∧ hostOf a = [10, 0, 0, 1] ∧ a.drop 16 = List.replicate 16 255 := by decide +kernel

/-- `addr_build_undisturbed`, `addr_build_one_port`: two threads, one after the other. -/
example : (run (step 32) { ai := six } [.enter 80 (List.replicate 32 0), .enter 80 (List.replicate 32 9), .store 0, .copy 0, .store 1, .copy 1]).map
    (fun s => s.calls.map (fun c => (portOf c.to, c.pc))) = some [(80, .finished), (80, .finished)] := by decide +kernel

/-- A resolver and a namer that know two addresses. -/
def names : Namer := fun f h => if f = 2 ∧ h = [10, 0, 0, 1] then some "10.0.0.1" else if f = 10 ∧ h = hostOf six.addr then some "::1" else none
def known : Resolver := fun t _ => if t = "10.0.0.1" then some [four] else if t = "::1" then some [six, four] else none

/-- `ipaddr_text_round_trip`, `getaddr_spec` -/
example : Agree known names := by
  constructor
  · intro f h t ht
    unfold names at ht
    split at ht
    · next hc => injection ht with ht; subst ht; exact ⟨four, [], rfl, ⟨.inl ⟨rfl, rfl⟩, rfl⟩, hc.1.symm, hc.2.symm ▸ rfl⟩
    · split at ht
      · next hc => injection ht with ht; subst ht; exact ⟨six, [four], rfl, ⟨.inr ⟨rfl, rfl⟩, rfl⟩, hc.1.symm, hc.2.symm⟩
      · cases ht
  · intro f h t ht
    unfold names at ht
    split at ht
    · injection ht with ht; subst ht; decide
    · split at ht
      · injection ht with ht; subst ht; decide
      · cases ht

example : ipaddrIp names 32 ⟨10, hostOf six.addr⟩ 46 = .ok (true, "::1") ∧ ipaddrIp names 32 ⟨10, hostOf six.addr⟩ 3 = .ok (false, "") ∧
    (getIpaddr known 32 "::1" (List.replicate 32 7) ⟨0, List.replicate 16 5⟩).2 = ⟨10, hostOf six.addr⟩ := by decide +kernel

/-! ## Findings -/

/-- **C67, finding.** The port is written into the shared look-up result before it is copied: of two threads that use one cached name at the same time with
different ports, both can get the port of one, so one connects to the wrong port. -/
theorem shared_port_race :
    (run (step 32) { ai := four } [.enter 80 (List.replicate 32 0), .enter 443 (List.replicate 32 0), .store 0, .store 1, .copy 0, .copy 1]).map
      (fun s => s.calls.map (fun c => (c.port, portOf c.to))) = some [(80, 443), (443, 443)] := by decide +kernel

/-- **C67, finding.** `kgl_addr_cname` is no different from `kgl_addr_ip`: the branch that asks for the canonical name runs on into the default one, so the
resolver is asked the same. -/
theorem cname_never_asked (v6 : Bool) : addrHints v6 .cname = addrHints v6 .ip ∧ (addrHints v6 .cname).flags = 0 := by cases v6 <;> exact ⟨rfl, rfl⟩

/-- **C67, finding.** A path that does not fit is cut without an error, and the path left has no end. -/
theorem unix_addr_cut {n : Nat} {path : List Byte} (hz : ∀ b ∈ path, b ≠ 0) (h : n ≤ path.length) :
    (unixAddr n path).1 = 0 ∧ (unixAddr n path).2 = path.take n ∧ cstr (unixAddr n path).2 = none := by
  have e : (unixAddr n path).2 = path.take n := by simp [unixAddr, show n - path.length = 0 by omega]
  refine ⟨rfl, e, ?_⟩
  rw [e]
  have hz' : ∀ b ∈ path.take n, b ≠ 0 := fun b hb => hz b (List.mem_of_mem_take hb)
  generalize path.take n = l at hz'
  induction l with
  | nil => rfl
  | cons b l ih =>
    have hb : b ≠ 0 := hz' b (by simp)
    have := ih (fun c hc => hz' c (List.mem_cons_of_mem _ hc))
    cases b with
    | zero => exact absurd rfl hb
    | succ b => simp [cstr, this]

/-- **C67, finding.** `ksocket_is_block` answers the opposite of its name. -/
theorem is_block_inverted (o : Opts) : isBlock (noBlock o) = true ∧ isBlock (block o) = false := ⟨rfl, rfl⟩

/-- **C67, finding.** Elsewhere than on Linux `ksocket_delay` takes back what `ksocket_no_delay` promised for ever. -/
theorem forever_taken_back (o : Opts) : (delay false (noDelay false o true)).nodelay = false := rfl

/-- **C67, finding.** A failing conversion writes its empty text even into a buffer of no bytes. -/
theorem ipaddr_text_no_room (n : Namer) {sz : Nat} (hs : 28 ≤ sz) {ia : IpAddr} (h : GoodIp ia) : ipaddrIp n sz ia 0 = .ub := by
  rw [ipaddrIp_eq n hs h]
  split <;> simp

end Kasync.Lookup
