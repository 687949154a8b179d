import Verif.Tls.CertLemmas

/-!
# Contexts made from certificates (C51)
-/

namespace Kasync.Tls.Cert

/-! ## What a context holds -/

def certsOf (c : Ctx) : List X509 := c.cert.toList ++ c.chain.getD []
def keysOf (c : Ctx) : List Nat := (c.key.map Prod.fst).toList
def stacksOf (c : Ctx) : Nat := if c.chain.isSome then 1 else 0

/-- the counts: what the context holds and what others hold -/
structure Acct (w : World) (c : Ctx) (ex : X509 → Nat) (ek : Nat → Nat) (st : Nat) : Prop where
  refs : ∀ y, w.refs y = (certsOf c).count y + ex y
  krefs : ∀ k, w.krefs k = (keysOf c).count k + ek k
  stacks : w.stacks = stacksOf c + st

/-- the configuration of the context that is not about certificates -/
def SameConf (c c' : Ctx) : Prop :=
  c'.verify = c.verify ∧ c'.ca = c.ca ∧ c'.sid = c.sid ∧ c'.sni = c.sni ∧ c'.alpn = c.alpn ∧ c'.data = c.data

theorem SameConf.refl (c : Ctx) : SameConf c c := ⟨rfl, rfl, rfl, rfl, rfl, rfl⟩
theorem SameConf.trans {a b c : Ctx} (h : SameConf a b) (g : SameConf b c) : SameConf a c := by
  obtain ⟨h1, h2, h3, h4, h5, h6⟩ := h
  obtain ⟨g1, g2, g3, g4, g5, g6⟩ := g
  exact ⟨g1.trans h1, g2.trans h2, g3.trans h3, g4.trans h4, g5.trans h5, g6.trans h6⟩

/-- everything but the counts of certificates, keys and stacks -/
structure Rest (w w' : World) : Prop where
  bios : w'.bios = w.bios
  ctxs : w'.ctxs = w.ctxs
  tried : w'.tried = w.tried
  next : w'.next = w.next
  /-- an object without references gets none -/
  zero : ∀ y, w.refs y = 0 → w'.refs y = 0
  kzero : ∀ k, w.krefs k = 0 → w'.krefs k = 0

theorem Rest.refl (w : World) : Rest w w := ⟨rfl, rfl, rfl, rfl, fun _ h => h, fun _ h => h⟩
theorem Rest.trans {a b c : World} (h : Rest a b) (g : Rest b c) : Rest a c :=
  ⟨g.bios.trans h.bios, g.ctxs.trans h.ctxs, g.tried.trans h.tried, g.next.trans h.next, fun y hy => g.zero y (h.zero y hy), fun y hy => g.kzero y (h.kzero y hy)⟩

theorem Fresh.rest {w w' : World} (h : Fresh w) (r : Rest w w') : Fresh w' :=
  ⟨fun x hx => r.zero x (h.1 x (by rw [← r.next]; exact hx)), fun k hk => r.kzero k (h.2 k (by rw [← r.next]; exact hk))⟩

theorem upd_zero {f : Nat → Nat} {k j : Nat} (h : f j = 0) : upd f k (f k - 1) j = 0 := by
  simp only [upd]
  by_cases e : j = k
  · subst e; simp; omega
  · rw [if_neg e]; exact h

theorem x509Free_acct {w : World} {c : Ctx} {ex : X509 → Nat} {ek : Nat → Nat} {st : Nat} {x : X509} (h : Acct w c ex ek st) (hx : 0 < ex x) :
    ∃ w', x509Free w x = some w' ∧ Acct w' c (fun y => ex y - [x].count y) ek st ∧ Rest w w' := by
  have h0 : 0 < w.refs x := by rw [h.refs]; omega
  refine ⟨_, x509Free_eq w x h0, ⟨?_, h.krefs, h.stacks⟩, ⟨rfl, rfl, rfl, rfl, fun y hy => by simp only; omega, fun _ h => h⟩⟩
  intro y
  simp only
  rw [h.refs y]
  by_cases e : y = x
  · subst e; simp only [List.count_cons_self, List.count_nil]; omega
  · rw [List.count_cons_of_ne (Ne.symm e)]; simp

theorem popFree_acct {w : World} {c : Ctx} {ex : X509 → Nat} {ek : Nat → Nat} {st : Nat} {l : List X509} (h : Acct w c ex ek st) (hx : ∀ y, l.count y ≤ ex y)
    (hs : 0 < st) : ∃ w', popFree w l = some w' ∧ Acct w' c (fun y => ex y - l.count y) ek (st - 1) ∧ Rest w w' := by
  refine ⟨_, popFree_eq w l (by rw [h.stacks]; omega) (fun y => by rw [h.refs y]; have := hx y; omega), ⟨?_, h.krefs, ?_⟩, ⟨rfl, rfl, rfl, rfl, fun y hy => by simp only; omega, fun _ h => h⟩⟩
  · intro y; simp only; rw [h.refs y]; have := hx y; omega
  · simp only; rw [h.stacks]; omega

theorem keyFree_acct {w : World} {c : Ctx} {ex : X509 → Nat} {ek : Nat → Nat} {st : Nat} {k : Nat} (h : Acct w c ex ek st) (hk : 0 < ek k) :
    ∃ w', keyFree w k = some w' ∧ Acct w' c ex (upd ek k (ek k - 1)) st ∧ Rest w w' := by
  refine ⟨_, keyFree_eq w k (by rw [h.krefs]; omega), ⟨h.refs, ?_, h.stacks⟩, ⟨rfl, rfl, rfl, rfl, fun _ h => h, fun j hj => upd_zero hj⟩⟩
  intro j
  simp only [upd]
  split
  · rename_i e; subst e; rw [h.krefs]; omega
  · exact h.krefs j

theorem useCertificate_acct (env : Env) {w : World} {c : Ctx} {ex : X509 → Nat} {ek : Nat → Nat} {st : Nat} (x : X509) (h : Acct w c ex ek st) (hpos : 0 < w.refs x) :
    (env.useOk = false ∧ useCertificate env w c x = some (w, c, false)) ∨
    (env.useOk = true ∧ ∃ w' c', useCertificate env w c x = some (w', c', true) ∧ Acct w' c' ex ek st ∧ Rest w w' ∧ SameConf c c' ∧ c'.cert = some x ∧ c'.chain = c.chain ∧
      (∀ k n, c'.key = some (k, n) → env.fits x.cert n = true)) := by
  by_cases hu : env.useOk = true
  · right
    refine ⟨hu, ?_⟩
    unfold useCertificate
    rw [if_neg (by simp [hu])]
    -- the new certificate in, the old one out
    have hE : ∃ w1, freeCert { w with refs := upd w.refs x (w.refs x + 1) } c.cert = some w1 ∧
        Acct w1 { c with cert := some x } ex ek st ∧ Rest w w1 := by
      have hx : ∀ y, upd w.refs x (w.refs x + 1) y = w.refs y + [x].count y := by
        intro y
        simp only [upd]
        by_cases e : y = x
        · subst e; simp
        · rw [if_neg e, List.count_cons_of_ne (Ne.symm e)]; simp
      have hz : ∀ y, w.refs y = 0 → upd w.refs x (w.refs x + 1) y = 0 := by
        intro y hy
        simp only [upd]
        rw [if_neg (by rintro rfl; omega)]; exact hy
      cases hc : c.cert with
      | none =>
        refine ⟨_, rfl, ⟨?_, h.krefs, h.stacks⟩, ⟨rfl, rfl, rfl, rfl, hz, fun _ h => h⟩⟩
        intro y
        simp only [hx y, h.refs y, certsOf, hc, Option.toList_none, Option.toList_some, List.nil_append, List.count_append]
        omega
      | some y0 =>
        have h0 : 0 < upd w.refs x (w.refs x + 1) y0 := by
          rw [hx y0, h.refs y0]; simp only [certsOf, hc, Option.toList_some, List.count_append, List.count_cons_self]; omega
        refine ⟨_, x509Free_eq { w with refs := upd w.refs x (w.refs x + 1) } y0 h0, ⟨?_, h.krefs, h.stacks⟩, ⟨rfl, rfl, rfl, rfl, fun y hy => by have := hz y hy; simp only; omega, fun _ h => h⟩⟩
        intro y
        simp only [hx y, h.refs y, certsOf, hc, Option.toList_some, List.count_append]
        omega
    obtain ⟨w1, e1, hA, hR⟩ := hE
    simp only
    rw [e1]
    simp only [Option.bind_some]
    cases hk : c.key with
    | none => exact ⟨w1, { c with cert := some x }, by simp [hk], hA, hR, ⟨rfl, rfl, rfl, rfl, rfl, rfl⟩, rfl, rfl, by simp [hk]⟩
    | some kn =>
      obtain ⟨k, n⟩ := kn
      by_cases hfit : env.fits x.cert n = true
      · refine ⟨w1, { c with cert := some x }, ?_, hA, hR, ⟨rfl, rfl, rfl, rfl, rfl, rfl⟩, rfl, rfl, ?_⟩
        · simp only; rw [if_pos hfit, hk]
        · intro k' n' e; simp only [hk, Option.some.injEq, Prod.mk.injEq] at e; rw [← e.2]; exact hfit
      · simp only
        rw [if_neg hfit]
        have hkk : w1.krefs k = 1 + ek k := by rw [hA.krefs]; simp [keysOf, hk]
        rw [keyFree_eq w1 k (by omega)]
        refine ⟨_, _, rfl, ⟨hA.refs, ?_, hA.stacks⟩, hR.trans ⟨rfl, rfl, rfl, rfl, fun _ h => h, fun j hj => upd_zero hj⟩, ⟨rfl, rfl, rfl, rfl, rfl, rfl⟩, rfl, rfl, by simp⟩
        intro j
        simp only [upd, keysOf, Option.map_none, Option.toList_none, List.count_nil]
        split
        · rename_i e; subst e; omega
        · rename_i e
          rw [hA.krefs j]
          simp only [keysOf, hk, Option.map_some, Option.toList_some]
          rw [List.count_cons_of_ne (Ne.symm e)]; rfl
  · left
    have : env.useOk = false := by simpa using hu
    exact ⟨this, by unfold useCertificate; rw [this]; rfl⟩

theorem set0Chain_acct (env : Env) {w : World} {c : Ctx} {ex : X509 → Nat} {ek : Nat → Nat} {st : Nat} (l : List X509) (h : Acct w c ex ek st)
    (hl : ∀ y, l.count y ≤ ex y) (hs : 0 < st) :
    (env.chainOk = false ∧ set0Chain env w c l = some (w, c, false)) ∨
    (env.chainOk = true ∧ ∃ w' c', set0Chain env w c l = some (w', c', true) ∧ Acct w' c' (fun y => ex y - l.count y) ek (st - 1) ∧ Rest w w' ∧ SameConf c c' ∧
      c'.cert = c.cert ∧ c'.chain = some l ∧ c'.key = c.key) := by
  by_cases hu : env.chainOk = true
  · right
    refine ⟨hu, ?_⟩
    unfold set0Chain
    rw [if_neg (by simp [hu])]
    cases hc : c.chain with
    | none =>
      refine ⟨w, _, rfl, ⟨?_, h.krefs, ?_⟩, Rest.refl w, ⟨rfl, rfl, rfl, rfl, rfl, rfl⟩, rfl, rfl, rfl⟩
      · intro y
        have := hl y
        simp only [h.refs y, certsOf, hc, Option.getD_none, Option.getD_some, List.append_nil, List.count_append]
        omega
      · rw [h.stacks]; simp only [stacksOf, hc]; simp; omega
    | some old =>
      have e := popFree_eq w old (by rw [h.stacks]; omega) (fun y => by rw [h.refs y]; simp only [certsOf, hc, Option.getD_some, List.count_append]; omega)
      simp only
      rw [e]
      refine ⟨_, _, rfl, ⟨?_, h.krefs, ?_⟩, ⟨rfl, rfl, rfl, rfl, fun y hy => by simp only; omega, fun _ h => h⟩, ⟨rfl, rfl, rfl, rfl, rfl, rfl⟩, rfl, rfl, rfl⟩
      · intro y
        have := hl y
        simp only [h.refs y, certsOf, hc, Option.getD_some, List.count_append]
        omega
      · simp only [h.stacks, stacksOf, hc]; simp; omega
  · left
    have : env.chainOk = false := by simpa using hu
    exact ⟨this, by unfold set0Chain; rw [this]; rfl⟩

theorem usePrivateKey_acct (env : Env) {w : World} {c : Ctx} {ex : X509 → Nat} {ek : Nat → Nat} {st : Nat} (k n : Nat) (x : X509) (hx : c.cert = some x) (h : Acct w c ex ek st) (hpos : 0 < w.krefs k) :
    ((env.keyOk = false ∨ env.fits x.cert n = false) ∧ usePrivateKey env w c (k, n) = some (w, c, false)) ∨
    ((env.keyOk = true ∧ env.fits x.cert n = true) ∧ ∃ w' c', usePrivateKey env w c (k, n) = some (w', c', true) ∧ Acct w' c' ex ek st ∧ Rest w w' ∧ SameConf c c' ∧
      c'.cert = c.cert ∧ c'.chain = c.chain ∧ c'.key = some (k, n)) := by
  by_cases hu : env.keyOk = true
  · by_cases hf : env.fits x.cert n = true
    · right
      refine ⟨⟨hu, hf⟩, ?_⟩
      unfold usePrivateKey
      rw [if_neg (by simp [hu]), if_neg (by simp [hx, hf])]
      have hk : ∀ j, upd w.krefs k (w.krefs k + 1) j = w.krefs j + [k].count j := by
        intro y
        simp only [upd]
        by_cases e : y = k
        · subst e; simp
        · rw [if_neg e, List.count_cons_of_ne (Ne.symm e)]; simp
      have hz : ∀ y, w.krefs y = 0 → upd w.krefs k (w.krefs k + 1) y = 0 := by
        intro y hy
        simp only [upd]
        rw [if_neg (by rintro rfl; omega)]; exact hy
      cases hc : c.key with
      | none =>
        refine ⟨_, _, rfl, ⟨h.refs, ?_, h.stacks⟩, ⟨rfl, rfl, rfl, rfl, fun _ h => h, hz⟩, ⟨rfl, rfl, rfl, rfl, rfl, rfl⟩, rfl, rfl, rfl⟩
        intro j
        simp only [hk j, h.krefs j, keysOf, hc, Option.map_none, Option.toList_none, Option.map_some, Option.toList_some, List.count_nil]
        omega
      | some o =>
        obtain ⟨o, m⟩ := o
        simp only
        have ho : 0 < upd w.krefs k (w.krefs k + 1) o := by rw [hk o, h.krefs o]; simp only [keysOf, hc, Option.map_some, Option.toList_some, List.count_cons_self]; omega
        rw [keyFree_eq _ o ho]
        refine ⟨_, _, rfl, ⟨h.refs, ?_, h.stacks⟩, ⟨rfl, rfl, rfl, rfl, fun _ h => h, fun j hj => upd_zero (hz j hj)⟩, ⟨rfl, rfl, rfl, rfl, rfl, rfl⟩, rfl, rfl, rfl⟩
        intro j
        simp only [keysOf, Option.map_some, Option.toList_some]
        have hj := h.krefs j
        simp only [keysOf, hc, Option.map_some, Option.toList_some] at hj
        have hkj := hk j
        simp only [upd] at hkj ho ⊢
        by_cases e : j = o
        · subst e
          rw [if_pos rfl]
          simp only [List.count_cons_self, List.count_nil] at hj
          rw [hkj]
          omega
        · rw [if_neg e]
          rw [List.count_cons_of_ne (Ne.symm e), List.count_nil] at hj
          rw [hkj]; omega
    · left
      have hf' : env.fits x.cert n = false := by simpa using hf
      refine ⟨.inr hf', ?_⟩
      unfold usePrivateKey
      rw [if_neg (by simp [hu]), if_pos (by simp [hx, hf'])]
  · left
    have : env.keyOk = false := by simpa using hu
    exact ⟨.inl this, by unfold usePrivateKey; rw [this]; rfl⟩

/-! ## Uniqueness of the specification -/

theorem Loads.unique {env : Env} {src : Bytes} {n n' : Nat} {cs cs' : List Nat} (h : Loads env src n cs) (h' : Loads env src n' cs') : n = n' := by
  obtain ⟨_, _, items, hO, pre, leaf, rest, e1, e2, e3, _⟩ := h
  obtain ⟨_, _, items', hO', pre', leaf', rest', e1', e2', e3', _⟩ := h'
  obtain rfl := hO.unique hO'
  have hl : isCert leaf = true := by rcases e3 with rfl | rfl <;> rfl
  have hl' : isCert leaf' = true := by rcases e3' with rfl | rfl <;> rfl
  obtain ⟨_, rfl, _⟩ := first_cert_unique (e1.symm.trans e1') e2 e2' hl hl'
  rcases e3 with rfl | rfl <;> rcases e3' with e | e <;> simp_all

theorem KeyText.unique {l : List Pem} {n m : Nat} {p q : Option Bytes} (h : KeyText l n p) (h' : KeyText l m q) : n = m ∧ p = q := by
  rcases keyBlock_spec l with ⟨a, b, _, _, h3⟩ | ⟨_, h2⟩
  · have e1 := h3 n p h
    have e2 := h3 m q h'
    exact ⟨e1.1.trans e2.1.symm, e1.2.trans e2.2.symm⟩
  · exact absurd h (h2 n p)

theorem Tries.res {n : Nat} {pw : Bytes} {g : List Bytes} {r : Option Nat} {t : List Bytes} (h : Tries n pw g r t) : r = if pw ∈ g then some n else none := by
  rcases h with ⟨a, b, rfl, _, h, _⟩ | ⟨h1, h2, _⟩
  · rw [if_pos (by simp)]; exact h
  · rw [if_neg h1]; exact h2

theorem KeyOutcome.unique {env : Env} {l : List Pem} {pws : Option (List Bytes)} {r r' : Option Nat} {t t' : List Bytes} (h : KeyOutcome env l pws r t)
    (h' : KeyOutcome env l pws r' t') : r = r' := by
  rcases h with ⟨n, h1, h2, _⟩ | ⟨n, pw, h1, h2⟩ | ⟨h1, h2, _⟩ <;> rcases h' with ⟨n', g1, g2, _⟩ | ⟨n', pw', g1, g2⟩ | ⟨g1, g2, _⟩
  · rw [h2, g2, (h1.unique g1).1]
  · exact absurd (h1.unique g1).2 (by simp)
  · exact absurd h1 (g1 n none)
  · exact absurd (h1.unique g1).2 (by simp)
  · obtain ⟨rfl, e⟩ := h1.unique g1
    cases e
    rw [h2.res, g2.res]
  · exact absurd h1 (g1 n _)
  · exact absurd g1 (h1 n' none)
  · exact absurd g1 (h1 n' _)
  · rw [h2, g2]

/-! ## C51 -/

/-- the texts make a context: a certificate with its chain, and a key that fits it and that one of the passwords opens -/
structure Good (env : Env) (cert : Option Bytes) (key : Bytes) (pws : Option (List Bytes)) (n : Nat) (cs : List Nat) (kn : Nat) : Prop where
  certs : Loads env (if cert = none ∨ cert = some [] then key else cert.getD []) n cs
  use : env.useOk = true
  chain : env.chainOk = true
  key : ∃ items tr, Opens env key items ∧ KeyOutcome env items pws (some kn) tr
  keyOk : env.keyOk = true
  fits : env.fits n kn = true

/-- what `kgl_ssl_certificate` may leave without an owner -/
inductive Leak (env : Env) (w : World) : Bool → Bool → List X509 → Prop where
  /-- nothing, and the certificate was not stored -/
  | clean : Leak env w false false []
  /-- the reference to the certificate that was stored -/
  | leaf (ok : Bool) (x : X509) : w.next ≤ x.id → Leak env w ok true [x]
  /-- a certificate of the chain whose `sk_X509_push` failed -/
  | temp (t : X509) (i : Nat) : w.next ≤ t.id → env.pushOk i = false → Leak env w false false [t]

theorem certificate_spec (env : Env) (w : World) (c : Ctx) (cert : Option Bytes) (key : Bytes) (pws : Option (List Bytes)) (hp : pws ≠ some []) (hf : Fresh w)
    {ex : X509 → Nat} {ek : Nat → Nat} {st : Nat} (h : Acct w c ex ek st) :
    ∃ w' c' ok leak tr stored, certificate env w c cert key pws = some (w', c', ok) ∧ Fresh w' ∧ w'.bios = w.bios ∧ w'.ctxs = w.ctxs ∧ w'.tried = tr.reverse ++ w.tried ∧
      Acct w' c' (fun y => ex y + leak.count y) ek st ∧ Leak env w ok stored leak ∧ SameConf c c' ∧ (stored = false → c' = c) ∧
      (∀ x, stored = true → leak = [x] → c'.cert = some x) ∧
      (ok = true → ∃ x l k n, c'.cert = some x ∧ c'.chain = some l ∧ c'.key = some (k, n) ∧ Good env cert key pws x.cert (l.map X509.cert) n) ∧
      (ok = false → ∀ n cs kn, ¬ Good env cert key pws n cs kn) ∧
      (tr = [] ∨ ∃ items r, Opens env key items ∧ KeyOutcome env items pws r tr) := by
  have hsrc : certSrc cert key = (if cert = none ∨ cert = some [] then key else cert.getD []) := by
    match cert with
    | none => simp [certSrc]
    | some [] => simp [certSrc]
    | some (a :: s) => simp [certSrc]
  unfold certificate
  rw [hsrc]
  obtain ⟨src, hS⟩ : ∃ s, s = (if cert = none ∨ cert = some [] then key else cert.getD []) := ⟨_, rfl⟩
  rw [← hS]
  obtain ⟨w1, hs1, hf1, hb1, h1⟩ := loadCertificate_spec env w src hf
  rcases h1 with ⟨x, l, e1, hL, hr1, hst1, hx⟩ | ⟨leak, e1, hL, hr1, hst1, hlk⟩
  · rw [e1]
    simp only
    have A1 : Acct w1 c (fun y => ex y + (x :: l).count y) ek (st + 1) := by
      refine ⟨?_, ?_, ?_⟩
      · intro y; rw [hr1 y, h.refs y]; omega
      · intro k; rw [hs1.krefs]; exact h.krefs k
      · rw [hst1, h.stacks]; omega
    have hcnt : ∀ y, (x :: l).count y = [x].count y + l.count y := fun y => by rw [← List.count_append]; rfl
    rcases useCertificate_acct env x A1 (by rw [hr1 x, List.count_cons_self]; omega) with ⟨hu, e2⟩ | ⟨hu, w2, c2, e2, A2, R2, S2, hc2, _, _⟩
    · -- not stored
      rw [e2]
      simp only
      obtain ⟨w3, e3, A3, R3⟩ := x509Free_acct (x := x) A1 (by rw [List.count_cons_self]; omega)
      rw [e3]
      simp only [Option.bind_some]
      obtain ⟨w4, e4, A4, R4⟩ := popFree_acct (l := l) A3 (by intro y; rw [hcnt y]; omega) (by omega)
      rw [e4]
      have hR := R3.trans R4
      refine ⟨w4, c, false, [], [], false, rfl, hf1.rest hR, by rw [hR.bios, hb1], by rw [hR.ctxs, hs1.ctxs], by rw [hR.tried, hs1.tried]; rfl, ?_, .clean, SameConf.refl c, fun _ => rfl, by simp, by simp, ?_, .inl rfl⟩
      · refine ⟨?_, A4.krefs, A4.stacks⟩
        intro y
        have := A4.refs y
        rw [hcnt y] at this
        simp only [List.count_nil]
        omega
      · rintro _ n cs kn hG
        have := hG.use
        rw [hu] at this; cases this
    · rw [e2]
      simp only
      rcases set0Chain_acct env l A2 (by intro y; rw [hcnt y]; omega) (by omega) with ⟨hu3, e3⟩ | ⟨hu3, w3, c3, e3, A3, R3, S3, hc3, hch3, _⟩
      · rw [e3]
        simp only
        obtain ⟨w4, e4, A4, R4⟩ := popFree_acct (l := l) A2 (by intro y; rw [hcnt y]; omega) (by omega)
        rw [e4]
        have hR := R2.trans R4
        refine ⟨w4, c2, false, [x], [], true, rfl, hf1.rest hR, by rw [hR.bios, hb1], by rw [hR.ctxs, hs1.ctxs], by rw [hR.tried, hs1.tried]; rfl, ?_, .leaf false x hx, S2, by simp, ?_, by simp, ?_, .inl rfl⟩
        · refine ⟨?_, A4.krefs, A4.stacks⟩
          intro y
          have := A4.refs y
          rw [hcnt y] at this
          omega
        · intro z _ hz; cases hz; exact hc2
        · rintro _ n cs kn hG
          have := hG.chain
          rw [hu3] at this; cases this
      · rw [e3]
        simp only
        have hR3 := R2.trans R3
        have hf3 := hf1.rest hR3
        have A3' : Acct w3 c3 (fun y => ex y + [x].count y) ek st := by
          refine ⟨?_, A3.krefs, A3.stacks⟩
          intro y
          have := A3.refs y
          rw [hcnt y] at this
          omega
        have hc3' : c3.cert = some x := hc3.trans hc2
        obtain ⟨w4, tr, g1, g2, g3, g4, g5, g6, g7, g8⟩ := loadKey_spec env w3 key pws hp hf3
        rcases g8 with ⟨k, n, items, e4, hO, hK, hk0, hkr⟩ | ⟨e4, hkr, hno⟩
        · rw [e4]
          simp only
          have hek : ek k = 0 := by have := A3.krefs k; omega
          have A4 : Acct w4 c3 (fun y => ex y + [x].count y) (upd ek k 1) st := by
            refine ⟨by rw [g1]; exact A3'.refs, ?_, by rw [g3]; exact A3'.stacks⟩
            intro j
            rw [hkr]
            simp only [upd]
            split
            · rename_i e; subst e; have := A3.krefs j; omega
            · exact A3.krefs j
          have hcl : ∀ c5 w5, Acct w5 c5 (fun y => ex y + [x].count y) (upd ek k 1) st → ∃ w6, keyFree w5 k = some w6 ∧ Acct w6 c5 (fun y => ex y + [x].count y) ek st ∧ Rest w5 w6 := by
            intro c5 w5 A5
            obtain ⟨w6, e6, A6, R6⟩ := keyFree_acct (k := k) A5 (by simp [upd])
            refine ⟨w6, e6, ⟨A6.refs, ?_, A6.stacks⟩, R6⟩
            intro j
            rw [A6.krefs j]
            simp only [upd]
            by_cases e : j = k
            · subst e; simp [hek]
            · simp [e]
          rcases usePrivateKey_acct env k n x hc3' A4 (by rw [hkr]; simp [upd]) with ⟨hu5, e5⟩ | ⟨hu5, w5, c5, e5, A5, R5, S5, hc5, hch5, hk5⟩
          · rw [e5]
            simp only
            obtain ⟨w6, e6, A6, R6⟩ := hcl c3 w4 A4
            rw [e6]
            refine ⟨w6, c3, false, [x], tr, true, rfl, g6.rest R6, by rw [R6.bios, g2, hR3.bios, hb1], by rw [R6.ctxs, g4, hR3.ctxs, hs1.ctxs], by rw [R6.tried, g7, hR3.tried, hs1.tried], A6,
              .leaf false x hx, S2.trans S3, by simp, ?_, by simp, ?_, .inr ⟨items, _, hO, hK⟩⟩
            · intro z _ hz; cases hz; exact hc3'
            · rintro _ n' cs kn hG
              obtain ⟨items', tr', hO', hK'⟩ := hG.key
              obtain rfl := hO.unique hO'
              have e := hK.unique hK'
              cases e
              have hc := hG.certs
              rw [← hS] at hc
              obtain rfl := hL.unique hc
              rcases hu5 with h | h
              · have := hG.keyOk; rw [h] at this; cases this
              · have := hG.fits; rw [h] at this; cases this
          · rw [e5]
            simp only
            obtain ⟨w6, e6, A6, R6⟩ := hcl c5 w5 A5
            rw [e6]
            have hR := R5.trans R6
            refine ⟨w6, c5, true, [x], tr, true, rfl, g6.rest hR, by rw [hR.bios, g2, hR3.bios, hb1], by rw [hR.ctxs, g4, hR3.ctxs, hs1.ctxs], by rw [hR.tried, g7, hR3.tried, hs1.tried], A6,
              .leaf true x hx, (S2.trans S3).trans S5, by simp, ?_, ?_, by simp, .inr ⟨items, _, hO, hK⟩⟩
            · intro z _ hz; cases hz; exact hc5.trans hc3'
            · intro _
              exact ⟨x, l, k, n, hc5.trans hc3', hch5.trans hch3, hk5, ⟨hS ▸ hL, hu, hu3, ⟨items, tr, hO, hK⟩, hu5.1, hu5.2⟩⟩
        · rw [e4]
          simp only
          have A4 : Acct w4 c3 (fun y => ex y + [x].count y) ek st :=
            ⟨by rw [g1]; exact A3'.refs, by rw [hkr]; exact A3'.krefs, by rw [g3]; exact A3'.stacks⟩
          refine ⟨w4, c3, false, [x], tr, true, rfl, g6, by rw [g2, hR3.bios, hb1], by rw [g4, hR3.ctxs, hs1.ctxs], by rw [g7, hR3.tried, hs1.tried], A4,
              .leaf false x hx, S2.trans S3, by simp, ?_, by simp, ?_, ?_⟩
          · intro z _ hz; cases hz; exact hc3'
          · rintro _ n' cs kn hG
            obtain ⟨items', tr', hO', hK'⟩ := hG.key
            rcases hno with ⟨hno, _⟩ | ⟨items, hO, hK⟩
            · exact hno items' hO'
            · obtain rfl := hO.unique hO'
              have e := hK.unique hK'
              cases e
          · rcases hno with ⟨_, h⟩ | ⟨items, hO, hK⟩
            · exact .inl h
            · exact .inr ⟨items, _, hO, hK⟩
  · rw [e1]
    simp only
    have A1 : Acct w1 c (fun y => ex y + leak.count y) ek st := by
      refine ⟨?_, ?_, ?_⟩
      · intro y; rw [hr1 y, h.refs y]; omega
      · intro k; rw [hs1.krefs]; exact h.krefs k
      · rw [hst1, h.stacks]
    refine ⟨w1, c, false, leak, [], false, rfl, hf1, hb1, hs1.ctxs, by rw [hs1.tried]; rfl, A1, ?_, SameConf.refl c, fun _ => rfl, by simp, by simp, ?_, .inl rfl⟩
    · rcases hlk with rfl | ⟨t, rfl, ht, i, hi⟩
      · exact .clean
      · exact .temp t i ht hi
    · rintro _ n cs kn hG
      have := hG.certs
      rw [← hS] at this
      exact hL n cs this

/-- a context that is in use: its certificates, key and chain are alive -/
def Alive (w : World) (c : Ctx) : Prop :=
  Fresh w ∧ (∀ y, (certsOf c).count y ≤ w.refs y) ∧ (∀ k, (keysOf c).count k ≤ w.krefs k) ∧ stacksOf c ≤ w.stacks

theorem Alive.acct {w : World} {c : Ctx} (h : Alive w c) :
    Acct w c (fun y => w.refs y - (certsOf c).count y) (fun k => w.krefs k - (keysOf c).count k) (w.stacks - stacksOf c) :=
  ⟨fun y => by have := h.2.1 y; omega, fun k => by have := h.2.2.1 k; omega, by have := h.2.2.2; omega⟩

/-- **C51 (no undefined behaviour).**  Whatever the texts and whatever fails, nothing is released twice and no password outside of the array is
read, as long as the array of passwords is not empty; the context stays usable. -/
theorem certificate_defined (env : Env) (w : World) (c : Ctx) (cert : Option Bytes) (key : Bytes) (pws : Option (List Bytes)) (hp : pws ≠ some [])
    (h : Alive w c) : ∃ w' c' ok, certificate env w c cert key pws = some (w', c', ok) ∧ Alive w' c' := by
  obtain ⟨w', c', ok, leak, tr, stored, e, hf, _, _, _, hA, _⟩ := certificate_spec env w c cert key pws hp h.1 h.acct
  exact ⟨w', c', ok, e, hf, fun y => by rw [hA.refs y]; omega, fun k => by rw [hA.krefs k]; omega, by rw [hA.stacks]; omega⟩

/-- **C51 (exactly when it succeeds).**  `kgl_ssl_certificate` returns 0 exactly when the text has a first certificate and a chain that can be
read to the end, the key can be opened and fits, and OpenSSL accepts them. -/
theorem certificate_iff (env : Env) (w : World) (c : Ctx) (cert : Option Bytes) (key : Bytes) (pws : Option (List Bytes)) (hp : pws ≠ some [])
    (h : Alive w c) {w' : World} {c' : Ctx} {ok : Bool} (e : certificate env w c cert key pws = some (w', c', ok)) :
    ok = true ↔ ∃ n cs kn, Good env cert key pws n cs kn := by
  obtain ⟨w1, c1, ok1, leak, tr, stored, e1, _, _, _, _, _, _, _, _, _, h1, h2, _⟩ := certificate_spec env w c cert key pws hp h.1 h.acct
  rw [e] at e1; cases e1
  constructor
  · intro hk
    obtain ⟨x, l, k, n, _, _, _, hG⟩ := h1 hk
    exact ⟨_, _, _, hG⟩
  · rintro ⟨n, cs, kn, hG⟩
    cases ok with
    | true => rfl
    | false => exact absurd hG (h2 rfl n cs kn)

/-- **C51 (what the context has then).**  The first certificate of the text, the others in their order as chain, and the key, which fits. -/
theorem certificate_contents (env : Env) (w : World) (c : Ctx) (cert : Option Bytes) (key : Bytes) (pws : Option (List Bytes)) (hp : pws ≠ some [])
    (h : Alive w c) {w' : World} {c' : Ctx} (e : certificate env w c cert key pws = some (w', c', true)) :
    ∃ x l k n, c'.cert = some x ∧ c'.chain = some l ∧ c'.key = some (k, n) ∧ Good env cert key pws x.cert (l.map X509.cert) n ∧ SameConf c c' := by
  obtain ⟨w1, c1, ok1, leak, tr, stored, e1, _, _, _, _, _, _, hS, _, _, h1, _, _⟩ := certificate_spec env w c cert key pws hp h.1 h.acct
  rw [e] at e1; cases e1
  obtain ⟨x, l, k, n, a, b, d, hG⟩ := h1 rfl
  exact ⟨x, l, k, n, a, b, d, hG, hS⟩

/-- **C51 (what it releases).**  After the call every BIO is closed, and every reference to a certificate, key or stack is the context's
or was there before, except the leaks of `Leak`; a call that does not store the certificate changes nothing in the context. -/
theorem certificate_ledger (env : Env) (w : World) (c : Ctx) (cert : Option Bytes) (key : Bytes) (pws : Option (List Bytes)) (hp : pws ≠ some [])
    (h : Alive w c) {w' : World} {c' : Ctx} {ok : Bool} (e : certificate env w c cert key pws = some (w', c', ok)) :
    w'.bios = w.bios ∧ w'.ctxs = w.ctxs ∧ (∀ k, w'.krefs k + (keysOf c).count k = w.krefs k + (keysOf c').count k) ∧
      w'.stacks + stacksOf c = w.stacks + stacksOf c' ∧
      ∃ leak stored, Leak env w ok stored leak ∧ (stored = false → c' = c) ∧ (∀ x, stored = true → leak = [x] → c'.cert = some x) ∧
        ∀ y, w'.refs y + (certsOf c).count y = w.refs y + (certsOf c').count y + leak.count y := by
  obtain ⟨w1, c1, ok1, leak, tr, stored, e1, _, hb, hc, _, hA, hL, _, hst, hx, _, _, _⟩ := certificate_spec env w c cert key pws hp h.1 h.acct
  rw [e] at e1; cases e1
  refine ⟨hb, hc, ?_, ?_, leak, stored, hL, hst, hx, ?_⟩
  · intro k; have := hA.krefs k; have := h.2.2.1 k; omega
  · have := hA.stacks; have := h.2.2.2; omega
  · intro y; have := hA.refs y; have := h.2.1 y; omega

/-- **C51 (passwords).**  OpenSSL is offered a beginning of the list of passwords, each once and in order; none when the key is not encrypted. -/
theorem certificate_passwords (env : Env) (w : World) (c : Ctx) (cert : Option Bytes) (key : Bytes) (pws : Option (List Bytes)) (hp : pws ≠ some [])
    (h : Alive w c) {w' : World} {c' : Ctx} {ok : Bool} (e : certificate env w c cert key pws = some (w', c', ok)) :
    ∃ tr, w'.tried = tr.reverse ++ w.tried ∧ tr <+: candidates env pws ∧
      (∀ items n, Opens env key items → KeyText items n none → tr = []) ∧
      (∀ items n pw, Opens env key items → KeyText items n (some pw) → pw ∈ tr → ∃ a, tr = a ++ [pw] ∧ pw ∉ a) := by
  obtain ⟨w1, c1, ok1, leak, tr, stored, e1, _, _, _, htr, _, _, _, _, _, _, _, ho⟩ := certificate_spec env w c cert key pws hp h.1 h.acct
  rw [e] at e1; cases e1
  refine ⟨tr, htr, ?_, ?_, ?_⟩
  · rcases ho with rfl | ⟨items, r, _, ⟨n, _, _, rfl⟩ | ⟨n, pw, _, ⟨a, b, e1, _, _, rfl⟩ | ⟨_, _, rfl⟩⟩ | ⟨_, _, rfl⟩⟩
    · exact List.nil_prefix
    · exact List.nil_prefix
    · exact ⟨b, by rw [e1]; simp⟩
    · exact List.prefix_refl _
    · exact List.nil_prefix
  · intro items n hO hK
    rcases ho with rfl | ⟨items', r, hO', ⟨n', _, _, rfl⟩ | ⟨n', pw, hK', _⟩ | ⟨_, _, rfl⟩⟩
    · rfl
    · rfl
    · obtain rfl := hO.unique hO'
      exact absurd (hK.unique hK').2 (by simp)
    · rfl
  · intro items n pw hO hK hm
    rcases ho with rfl | ⟨items', r, hO', ⟨n', _, _, rfl⟩ | ⟨n', pw', hK', ht⟩ | ⟨_, _, rfl⟩⟩
    · cases hm
    · cases hm
    · obtain rfl := hO.unique hO'
      have := (hK.unique hK').2
      cases this
      rcases ht with ⟨a, b, _, ha, _, rfl⟩ | ⟨hn, _, rfl⟩
      · exact ⟨a, rfl, ha⟩
      · exact absurd hm hn
    · cases hm

/-- **C51 (password buffer).**  The callback never writes more than the buffer has, and what it writes is a beginning of the password. -/
theorem password_callback_bound (size : Nat) (pwd : Option Bytes) :
    (passwordCallback size pwd).length ≤ size ∧ passwordCallback size pwd <+: pwd.getD [] ∧
      (∀ p, pwd = some p → p.length ≤ size → passwordCallback size pwd = p) := by
  cases pwd with
  | none => simp [passwordCallback]
  | some p =>
    rw [passwordCallback_eq]
    refine ⟨by simp; omega, List.take_prefix _ _, ?_⟩
    rintro q h hl; cases h; exact List.take_of_length_le hl

theorem ctxFree_acct {w : World} {c : Ctx} {ex : X509 → Nat} {ek : Nat → Nat} {st : Nat} (h : Acct w c ex ek st) (hc : 0 < w.ctxs) :
    ∃ w', ctxFree w c = some w' ∧ (∀ y, w'.refs y = ex y) ∧ (∀ k, w'.krefs k = ek k) ∧ w'.stacks = st ∧ w'.ctxs + 1 = w.ctxs ∧ w'.bios = w.bios ∧ w'.tried = w.tried := by
  unfold ctxFree
  rw [if_neg (by omega)]
  have hr := h.refs
  have hk := h.krefs
  have hs := h.stacks
  simp only [certsOf, List.count_append] at hr
  have e1 : ∃ w1, freeCert { w with ctxs := w.ctxs - 1 } c.cert = some w1 ∧ (∀ y, w1.refs y = (c.chain.getD []).count y + ex y) ∧ w1.krefs = w.krefs ∧ w1.stacks = w.stacks ∧
      w1.ctxs + 1 = w.ctxs ∧ w1.bios = w.bios ∧ w1.tried = w.tried := by
    cases hx : c.cert with
    | none =>
      refine ⟨_, rfl, ?_, rfl, rfl, ?_, rfl, rfl⟩
      · intro y; have := hr y; simp only [hx, Option.toList_none, List.count_nil] at this; simp only; omega
      · simp only; omega
    | some x =>
      have h0 : 0 < w.refs x := by rw [hr x, hx]; simp; omega
      refine ⟨_, x509Free_eq { w with ctxs := w.ctxs - 1 } x h0, ?_, rfl, rfl, ?_, rfl, rfl⟩
      · intro y; have := hr y; simp only [hx, Option.toList_some] at this; simp only; omega
      · simp only; omega
  obtain ⟨w1, e1, r1, k1, s1, c1, b1, t1⟩ := e1
  simp only [e1, Option.bind_some]
  have e2 : ∃ w2, freeChain w1 c.chain = some w2 ∧ (∀ y, w2.refs y = ex y) ∧ w2.krefs = w.krefs ∧ w2.stacks = st ∧
      w2.ctxs + 1 = w.ctxs ∧ w2.bios = w.bios ∧ w2.tried = w.tried := by
    cases hx : c.chain with
    | none =>
      refine ⟨w1, rfl, ?_, k1, ?_, c1, b1, t1⟩
      · intro y; have := r1 y; simp only [hx, Option.getD_none, List.count_nil] at this; omega
      · rw [s1, hs]; simp [stacksOf, hx]
    | some l =>
      have hst : w1.stacks = 1 + st := by rw [s1, hs]; simp [stacksOf, hx]
      refine ⟨_, popFree_eq w1 l (by omega) (fun y => by have := r1 y; simp only [hx, Option.getD_some] at this; omega), ?_, k1, ?_, c1, b1, t1⟩
      · intro y; have := r1 y; simp only [hx, Option.getD_some] at this; simp only; omega
      · simp only; omega
  obtain ⟨w2, e2, r2, k2, s2, c2, b2, t2⟩ := e2
  simp only [e2, Option.bind_some]
  cases hx : c.key with
  | none =>
    refine ⟨w2, rfl, r2, ?_, s2, c2, b2, t2⟩
    intro k; rw [k2, hk k]; simp [keysOf, hx]
  | some k =>
    have hkk : ∀ j, w2.krefs j = [k.1].count j + ek j := by intro j; rw [k2, hk j]; simp only [keysOf, hx, Option.map_some, Option.toList_some]
    have h0 : 0 < w2.krefs k.1 := by rw [hkk]; simp; omega
    refine ⟨_, keyFree_eq w2 k.1 h0, r2, ?_, s2, c2, b2, t2⟩
    intro j
    simp only [upd]
    by_cases e : j = k.1
    · subst e; rw [if_pos rfl, hkk]; simp
    · rw [if_neg e, hkk, List.count_cons_of_ne (Ne.symm e)]; simp

/-- a certificate authority is given -/
def caGiven (caPath caFile : Option Bytes) : Bool := caPath.isSome || caFile.isSome

theorem postInit_spec (env : Env) (sni npn : Bool) {w : World} {c : Ctx} {ex : X509 → Nat} {ek : Nat → Nat} {st : Nat} (caPath caFile : Option Bytes)
    (h : Acct w c ex ek st) (hc : 0 < w.ctxs) (hk : checkKey env c = true) :
    ((caGiven caPath caFile = false ∨ env.caOk = true) ∧ ∃ c', postInit env sni npn w c caPath caFile = some (w, some c') ∧ c'.cert = c.cert ∧ c'.chain = c.chain ∧ c'.key = c.key ∧
        c'.sid = c.sid ∧ c'.data = c.data ∧ c'.verify = (if caGiven caPath caFile then (true, true) else c.verify) ∧ c'.ca = (if caGiven caPath caFile then some (caFile, caPath) else c.ca) ∧
        c'.sni = sni ∧ c'.alpn = (npn && c.data.isSome)) ∨
    ((caGiven caPath caFile = true ∧ env.caOk = false) ∧ ∃ w', postInit env sni npn w c caPath caFile = some (w', none) ∧
        (∀ y, w'.refs y = ex y) ∧ (∀ k, w'.krefs k = ek k) ∧ w'.stacks = st ∧ w'.ctxs + 1 = w.ctxs ∧ w'.bios = w.bios ∧ w'.tried = w.tried) := by
  unfold postInit
  rw [if_neg (by simp [hk])]
  by_cases hg : caGiven caPath caFile = true
  · have hg' : (caPath.isSome || caFile.isSome) = true := hg
    by_cases ho : env.caOk = true
    · left
      refine ⟨.inr ho, ?_⟩
      simp only [hg', ho, hg]
      exact ⟨_, rfl, rfl, rfl, rfl, rfl, rfl, rfl, rfl, rfl, rfl⟩
    · right
      have ho' : env.caOk = false := by simpa using ho
      refine ⟨⟨hg, ho'⟩, ?_⟩
      simp only [hg', ho']
      obtain ⟨w', e, r⟩ := ctxFree_acct (c := { c with verify := (true, true), ca := none }) (ex := ex) (ek := ek) (st := st) ⟨h.refs, h.krefs, h.stacks⟩ hc
      exact ⟨w', by simp [e], r⟩
  · have hg2 : caGiven caPath caFile = false := by simpa using hg
    have hg' : (caPath.isSome || caFile.isSome) = false := hg2
    left
    refine ⟨.inl hg2, ?_⟩
    simp only [hg', hg2]
    exact ⟨_, rfl, rfl, rfl, rfl, rfl, rfl, rfl, rfl, rfl, rfl⟩

/-- **C51 (a key that does not fit).**  However the context got its certificate and key (also `kgl_ssl_ctx_new_server`, from files), a context without a key that
fits is released and NULL returned. -/
theorem post_init_key (env : Env) (sni npn : Bool) {w : World} {c : Ctx} {ex : X509 → Nat} {ek : Nat → Nat} {st : Nat} (caPath caFile : Option Bytes)
    (h : Acct w c ex ek st) (hc : 0 < w.ctxs) (hk : ∀ x k n, c.cert = some x → c.key = some (k, n) → env.fits x.cert n = false) :
    ∃ w', postInit env sni npn w c caPath caFile = some (w', none) ∧ (∀ y, w'.refs y = ex y) ∧ (∀ k, w'.krefs k = ek k) ∧ w'.stacks = st ∧ w'.ctxs + 1 = w.ctxs := by
  have hck : checkKey env c = false := by
    unfold checkKey
    split
    · rename_i x k n e1 e2; exact hk x k n e1 e2
    · rfl
  obtain ⟨w', e, r1, r2, r3, r4, _⟩ := ctxFree_acct h hc
  refine ⟨w', ?_, r1, r2, r3, r4⟩
  unfold postInit
  rw [if_pos (by simp [hck]), e]
  rfl

/-- **C51 (a server context).**  `kgl_ssl_ctx_new_server2` returns a context exactly when the texts are good, and the context then has the certificate,
chain and key of the texts, asks for and requires client certificates exactly when a certificate authority was given, and has the
hooks; otherwise NULL is returned and everything that was made is released (but the leak of `kgl_ssl_certificate`). -/
theorem new_server_exact (env : Env) (sni npn : Bool) (w : World) (cert : Bytes) (key : Bytes) (caPath caFile : Option Bytes) (data : Option Nat) (hf : Fresh w) :
    ∃ (w' : World) (r : Option Ctx) (leak : List X509), newServer2 env sni npn w (some cert) key caPath caFile data = some (w', r) ∧ w'.bios = w.bios ∧ leak.length ≤ 1 ∧
      (r.isSome = true ↔ env.ctxOk = true ∧ (∃ n cs kn, Good env (some cert) key none n cs kn) ∧ (caGiven caPath caFile = true → env.caOk = true)) ∧
      (∀ c, r = some c → (∃ x l k n, c.cert = some x ∧ c.chain = some l ∧ c.key = some (k, n) ∧ Good env (some cert) key none x.cert (l.map X509.cert) n) ∧
        c.verify = (caGiven caPath caFile, caGiven caPath caFile) ∧ c.ca = (if caGiven caPath caFile then some (caFile, caPath) else none) ∧
        c.sni = sni ∧ c.alpn = (npn && data.isSome) ∧ c.data = data ∧
        (∀ y, w'.refs y = w.refs y + (certsOf c).count y + leak.count y) ∧ (∀ k, w'.krefs k = w.krefs k + (keysOf c).count k) ∧
        w'.stacks = w.stacks + 1 ∧ w'.ctxs = w.ctxs + 1) ∧
      (r = none → (∀ y, w'.refs y = w.refs y + leak.count y) ∧ w'.krefs = w.krefs ∧ w'.stacks = w.stacks ∧ w'.ctxs = w.ctxs) := by
  unfold newServer2
  by_cases hx : env.ctxOk = true
  · have e0 : ctxNew env w data = some ({ w with ctxs := w.ctxs + 1 }, { cert := none, chain := none, key := none, verify := (false, false), ca := none, sid := none, sni := false, alpn := false, data := data }) := by
      unfold ctxNew; rw [if_neg (by simp [hx])]
    rw [e0]
    simp only
    obtain ⟨c0, hc0⟩ : ∃ c0 : Ctx, c0 = { cert := none, chain := none, key := none, verify := (false, false), ca := none, sid := none, sni := false, alpn := false, data := data } := ⟨_, rfl⟩
    obtain ⟨w0, hw0⟩ : ∃ w0 : World, w0 = { w with ctxs := w.ctxs + 1 } := ⟨_, rfl⟩
    rw [← hc0, ← hw0]
    have hf0 : Fresh w0 := by rw [hw0]; exact hf
    have hA0 : Acct w0 c0 w.refs w.krefs w.stacks := by
      rw [hw0, hc0]; exact ⟨fun y => by simp [certsOf], fun k => by simp [keysOf], by simp [stacksOf]⟩
    have hctx0 : w0.ctxs = w.ctxs + 1 := by rw [hw0]
    have hb0 : w0.bios = w.bios := by rw [hw0]
    obtain ⟨w1, c1, ok, leak, tr, stored, e1, hf1, hb1, hc1, _, hA1, hL, hS, hst, hlx, h1, h2, _⟩ := certificate_spec env w0 c0 (some cert) key none (by simp) hf0 hA0
    have hlen : leak.length ≤ 1 := by cases hL <;> simp
    rw [e1]
    cases ok with
    | false =>
      simp only
      obtain ⟨w2, e2, r2, k2, s2, x2, b2, t2⟩ := ctxFree_acct hA1 (by omega)
      rw [e2]
      refine ⟨w2, none, leak, rfl, by omega, hlen, ?_, by simp, ?_⟩
      · constructor
        · intro h; cases h
        · rintro ⟨_, ⟨n, cs, kn, hG⟩, _⟩; exact absurd hG (h2 rfl n cs kn)
      · intro _; exact ⟨r2, funext k2, s2, by omega⟩
    | true =>
      simp only
      obtain ⟨x, l, k, n, hc, hch, hk, hG⟩ := h1 rfl
      obtain ⟨c2, hc2⟩ : ∃ c2, c2 = (if env.sidOk = true then { c1 with sid := some cert } else c1) := ⟨_, rfl⟩
      have g1 : c2.cert = c1.cert := by rw [hc2]; split <;> rfl
      have g2 : c2.chain = c1.chain := by rw [hc2]; split <;> rfl
      have g3 : c2.key = c1.key := by rw [hc2]; split <;> rfl
      have g4 : c2.verify = c1.verify := by rw [hc2]; split <;> rfl
      have g5 : c2.data = c1.data := by rw [hc2]; split <;> rfl
      have g6 : c2.ca = c1.ca := by rw [hc2]; split <;> rfl
      rw [← hc2]
      obtain ⟨S1, S2, S3, S4, S5, S6⟩ := hS
      rw [hc0] at S1 S2 S6
      simp only at S1 S2 S6
      have hA2 : Acct w1 c2 (fun y => w.refs y + leak.count y) w.krefs w.stacks := by
        refine ⟨?_, ?_, ?_⟩
        · intro y; rw [hA1.refs y]; simp only [certsOf, g1, g2]
        · intro y; rw [hA1.krefs y]; simp only [keysOf, g3]
        · rw [hA1.stacks]; simp only [stacksOf, g2]
      have hck : checkKey env c2 = true := by
        unfold checkKey; rw [g1, g3, hc, hk]; exact hG.fits
      rcases postInit_spec env sni npn caPath caFile hA2 (by omega) hck with ⟨hca, c', e3, a1, a2, a3, a4, a5, a6, a7, a8, a9⟩ | ⟨hca, w', e3, r3, k3, s3, x3, b3, t3⟩
      · rw [e3]
        refine ⟨w1, some c', leak, rfl, by omega, hlen, ?_, ?_, by simp⟩
        · simp only [Option.isSome_some, true_iff]
          refine ⟨hx, ⟨_, _, _, hG⟩, ?_⟩
          intro hg
          rcases hca with h | h
          · rw [h] at hg; cases hg
          · exact h
        · rintro c4 h; cases h
          refine ⟨⟨x, l, k, n, a1.trans (g1.trans hc), a2.trans (g2.trans hch), a3.trans (g3.trans hk), hG⟩, ?_, ?_, a8, ?_, a5.trans (g5.trans S6), ?_, ?_, ?_, by omega⟩
          · rw [a6, g4, S1]; cases caGiven caPath caFile <;> rfl
          · rw [a7, g6, S2]
          · rw [a9, g5, S6]
          · intro y; rw [hA2.refs y]; simp only [certsOf, a1, a2]; omega
          · intro y; rw [hA2.krefs y]; simp only [keysOf, a3]; omega
          · rw [hA2.stacks]; simp only [stacksOf, g2, hch, Option.isSome_some, if_true]; omega
      · rw [e3]
        refine ⟨w', none, leak, rfl, by omega, hlen, ?_, by simp, ?_⟩
        · constructor
          · intro h; cases h
          · rintro ⟨_, _, h⟩
            have := h hca.1
            rw [hca.2] at this; cases this
        · intro _; exact ⟨r3, funext k3, s3, by omega⟩
  · have hx' : env.ctxOk = false := by simpa using hx
    have e0 : ctxNew env w data = none := by unfold ctxNew; rw [hx']; rfl
    rw [e0]
    refine ⟨w, none, [], rfl, rfl, by simp, ?_, by simp, by simp⟩
    constructor
    · intro h; cases h
    · rintro ⟨h, _⟩; exact absurd h hx

/-! ## Concrete runs -/

/-- a server text: a certificate, its chain of two, and an encrypted key -/
def env0 : Env :=
  { parse := fun _ => [.cert 1, .cert 2, .other, .trusted 9, .cert 3, .key 1 (some [112])], file := fun _ => none, memOk := true, stackOk := true, pushOk := fun _ => true, useOk := true,
    chainOk := true, keyOk := true, fits := fun a b => a == b, tty := [112], ctxOk := true, sidOk := true, caOk := true }

def w0 : World := { refs := fun _ => 0, krefs := fun _ => 0, next := 0, bios := 0, stacks := 0, ctxs := 0, tried := [] }

def c0 : Ctx := { cert := none, chain := none, key := none, verify := (false, false), ca := none, sid := none, sni := false, alpn := false, data := none }

def src0 : Bytes := dataPrefix ++ [45]

theorem alive0 : Alive w0 c0 := ⟨⟨fun _ _ => rfl, fun _ _ => rfl⟩, fun _ => Nat.le_refl _, fun _ => Nat.le_refl _, Nat.le_refl _⟩

structure Obs where
  cert : Option Nat
  chain : Option (List Nat)
  key : Option Nat
  ok : Bool
  tried : List (List UInt8)
  deriving DecidableEq

def obs (r : World × Ctx × Bool) : Obs :=
  ⟨r.2.1.cert.map X509.cert, r.2.1.chain.map (List.map X509.cert), r.2.1.key.map Prod.snd, r.2.2, r.1.tried⟩

/-- the chain is 2, 3; the password that opens the key is the second of three and the last one tried -/
theorem run0 : (certificate env0 w0 c0 none src0 (some [[113], [112], [114]])).map obs = some ⟨some 1, some [2, 3], some 1, true, [[112], [113]]⟩ := by decide +kernel

example : Good env0 none src0 (some [[113], [112], [114]]) 1 [2, 3] 1 := by
  have h := run0
  obtain ⟨w', c', ok, e, _⟩ := certificate_defined env0 w0 c0 none src0 (some [[113], [112], [114]]) (by simp) alive0
  rw [e] at h
  simp only [Option.map_some, Option.some.injEq, obs, Obs.mk.injEq] at h
  obtain ⟨h1, h2, h3, rfl, _⟩ := h
  obtain ⟨x, l, k, n, a, b, d, hG, _⟩ := certificate_contents env0 w0 c0 none src0 _ (by simp) alive0 e
  rw [a] at h1; rw [b] at h2; rw [d] at h3
  simp only [Option.map_some, Option.some.injEq] at h1 h2 h3
  rw [h1, h2, h3] at hG
  exact hG

/-- a context with client certificates -/
example : (newServer2 env0 true true w0 (some src0) src0 none (some [99]) (some 5)).map (fun r => (r.2.map (fun c => (c.verify, c.sni, c.alpn)), r.1.ctxs, r.1.bios, r.1.stacks)) =
    some (some ((true, true), true, true), 1, 0, 1) := by decide +kernel

/-! ## Findings -/

/-- **Finding (C51).** Every successful `kgl_ssl_certificate` leaks a reference to the certificate: the comment at src/kgl_ssl.c:632-639 was copied from nginx, which
frees it in a function that does not exist here. -/
example : (certificate env0 w0 c0 none src0 (some [[112]])).map (fun r => (r.1.refs ⟨0, 1⟩, (certsOf r.2.1).count ⟨0, 1⟩)) = some (2, 1) := by decide +kernel

/-- **Finding (C51).** A failed call on a context that works leaves it broken: the new certificate replaces the old one and the old key is dropped before the new
key is read (src/kgl_ssl.c:626-682), so a reload with a wrong key file disables the running server. -/
example :
    let env1 : Env := { env0 with parse := fun _ => [.cert 7] }
    ((certificate env0 w0 c0 none src0 (some [[112]])).bind fun r => certificate env1 r.1 r.2.1 none src0 none).map
      (fun r => (r.2.2, r.2.1.cert.map X509.cert, r.2.1.key)) = some (false, some 7, none) := by decide +kernel

/-- **Finding (C51).** An empty array of passwords: the password after the end of the array is read (src/kgl_ssl.c:575-588). -/
example : (certificate env0 w0 c0 none src0 (some [])).isNone = true := by decide +kernel

/-- **Finding (C51).** `kgl_ssl_certificate` accepts NULL for the certificate (the key's text then has both), but `kgl_ssl_ctx_new_server2` then reads
`cert_buffer->data` of NULL (src/kgl_ssl.c:760). -/
example : (newServer2 env0 true true w0 none src0 none none none).isNone = true := by decide +kernel

/-- **Finding (C51).** A damaged certificate whose error has the number 108 in any OpenSSL library passes for the end of the text (the test of the library is commented
out, src/kgl_ssl.c:524-525): the chain is cut and the call succeeds. -/
example :
    let env1 : Env := { env0 with parse := fun _ => [.cert 1, .badCert 108, .cert 3, .key 1 none] }
    (certificate env1 w0 c0 none src0 none).map (fun r => (r.2.2, r.2.1.chain.map (List.map X509.cert))) = some (true, some []) := by decide +kernel

/-- **Finding (C51).** `sk_X509_push` fails: the certificate just read is leaked (src/kgl_ssl.c:540-546). -/
example :
    let env1 : Env := { env0 with pushOk := fun i => i == 0 }
    (certificate env1 w0 c0 none src0 none).map (fun r => (r.2.2, r.1.refs ⟨2, 3⟩, r.1.refs ⟨1, 2⟩, r.1.refs ⟨0, 1⟩)) = some (false, 1, 0, 0) := by decide +kernel

end Kasync.Tls.Cert
