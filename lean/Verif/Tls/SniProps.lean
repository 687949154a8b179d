import Verif.Tls.Sni

/-!
# C53: server names and protocols of TLS connections

For every number of contexts and connections, every order and number of OpenSSL's callbacks, all names and all answers of the program's
own callbacks.
-/

namespace Kasync.Sni

/-! ## Specification -/

/-- The wire form of a list of protocol names (RFC 7301): each name after its length. -/
def wire : List Bytes → Bytes
  | [] => []
  | p :: ps => UInt8.ofNat p.length :: (p ++ wire ps)

/-- A name that can be sent: at most 255 bytes. -/
def Fits (ps : List Bytes) : Prop := ∀ p ∈ ps, p.length < 256

/-- `p` is the protocol the server prefers among those the client offers. -/
def Chosen (server client : List Bytes) (p : Bytes) : Prop :=
  ∃ before after, server = before ++ p :: after ∧ p ∈ client ∧ ∀ q ∈ before, q ∉ client

/-- `http/1.1` -/
def http11 : Bytes := [0x68, 0x74, 0x74, 0x70, 0x2f, 0x31, 0x2e, 0x31]

/-- The objects `create_sni` gave for a connection, oldest first. -/
def given (k : Conn) : List Nat := k.asks.filterMap Ask.obj

/-- The contexts `create_sni` gave for a connection and OpenSSL took. -/
def taken (k : Conn) : List Nat := k.asks.filterMap (fun a => if a.took then a.ctx else none)

/-- The objects freed for connection `c`. -/
def freedOf (s : St) (c : Nat) : List Nat := s.freed.filterMap (fun e => if e.1 = c then some e.2 else none)

/-- A connection `kgl_ssl_sni` still asks about: server side and without an object. -/
def Asks (k : Conn) : Prop := k.ex = true ∧ k.sni = none

/-! ## Steps -/

theorem sni_cases {create : Bool} {k k' : Conn} {name : Option Bytes} {r : Reply} {b : Bool} (h : sni create k name r = .ok (k', b)) :
    create = true ∧
    ((k' = k ∧ (b = false ↔ Asks k ∧ name = none ∧ k.server = some true) ∧ (Asks k → name = none)) ∨
     (∃ n, k' = asked k n r ∧ name = some n ∧ Asks k ∧ b = true)) := by
  unfold sni at h
  cases hc : create with
  | false => simp [hc] at h
  | true =>
    simp only [hc, Bool.not_true, Bool.false_eq_true, if_false] at h
    refine ⟨rfl, ?_⟩
    unfold Asks
    cases he : k.ex <;> cases hs : k.sni <;> cases name <;> cases hv : k.server <;> simp_all <;> (try split at h) <;> simp_all <;> grind

/-- What a callback does to its connection: nothing, or one call of `create_sni`. -/
inductive Touch (k : Conn) : Conn → Prop where
  | same : Touch k k
  | ask (n : Bytes) (r : Reply) : Asks k → Touch k (asked k n r)

theorem sni_touch {create : Bool} {k k' : Conn} {name : Option Bytes} {r : Reply} {b : Bool} (h : sni create k name r = .ok (k', b)) : Touch k k' := by
  rcases (sni_cases h).2 with ⟨h1, _⟩ | ⟨n, h1, _, h3, _⟩
  · subst h1; exact .same
  · subst h1; exact .ask n r h3

theorem alpn_touch {s : St} {k k' : Conn} {name : Option Bytes} {r : Reply} {adv client a} (h : alpn s k name r adv client = .ok (k', a)) : Touch k k' := by
  unfold alpn at h
  split at h
  · split at h
    · split at h
      · rename_i hh _; simp only [Res.ok.injEq, Prod.mk.injEq] at h; obtain ⟨rfl, _⟩ := h; exact sni_touch hh
      · simp at h
    · rename_i hh; simp only [Res.ok.injEq, Prod.mk.injEq] at h; obtain ⟨rfl, _⟩ := h; exact sni_touch hh
    · simp at h
    · simp at h
  · split at h
    · simp only [Res.ok.injEq, Prod.mk.injEq] at h; obtain ⟨rfl, _⟩ := h; exact .same
    · simp at h

/-- What a step does to connections, frees and answers. -/
inductive Eff (s : St) : St → Prop where
  | globals {s'} : s'.conns = s.conns → s'.freed = s.freed → s'.ans = s.ans → Eff s s'
  | new {s'} (c x : Nat) (ex : Bool) (v : Option Bool) : s.conns c = none →
      s'.conns = (s.put c { ctx0 := x, ctx := x, ex := ex, server := v }).conns → s'.freed = s.freed → s'.ans = s.ans → Eff s s'
  | touch {s'} (c : Nat) (k k' : Conn) (a : Ans) : s.conns c = some k → k.dead = false → Touch k k' →
      s'.conns = (s.put c k').conns → s'.freed = s.freed → s'.ans = s.ans ++ [(c, a)] → Eff s s'
  | die {s'} (c : Nat) (k : Conn) : s.conns c = some k → k.dead = false →
      s'.conns = (s.put c { k with dead := true }).conns → s'.freed = s.freed ++ (k.sni.toList.map (fun o => (c, o))) → s'.ans = s.ans → Eff s s'

theorem stepName_ok {s s' : St} {c : Nat} {name : Option Bytes} {r : Reply} (h : stepName s c name r = .ok s') :
    ∃ k k' b, s.conns c = some k ∧ k.dead = false ∧ sni s.create k name r = .ok (k', b) ∧ (sniOf s k.ctx0 = true ∨ sniOf s k.ctx = true) ∧
      s' = { s.put c k' with ans := s.ans ++ [(c, if b then .go else .fatal)] } := by
  unfold stepName at h
  split at h
  · simp at h
  · rename_i k hk
    split at h
    · simp at h
    · split at h
      · rename_i k' b hb
        simp only [Res.ok.injEq] at h
        refine ⟨k, k', b, hk, ?_, hb, ?_, h.symm⟩ <;> simp_all <;> grind
      · simp at h
      · simp at h

theorem stepSelect_ok {s s' : St} {c : Nat} {name : Option Bytes} {r : Reply} {adv client} (h : stepSelect s c name r adv client = .ok s') :
    ∃ k k' a, s.conns c = some k ∧ k.dead = false ∧ alpn s k name r adv client = .ok (k', a) ∧ alpnOf s k.ctx = true ∧
      s' = { s.put c k' with ans := s.ans ++ [(c, a)] } := by
  unfold stepSelect at h
  split at h
  · simp at h
  · rename_i k hk
    split at h
    · simp at h
    · split at h
      · rename_i k' b hb
        simp only [Res.ok.injEq] at h
        refine ⟨k, k', b, hk, ?_, hb, ?_, h.symm⟩ <;> simp_all
      · simp at h
      · simp at h

theorem stepDestroy_ok {s s' : St} {c : Nat} (h : stepDestroy s c = .ok s') :
    ∃ k, s.conns c = some k ∧ k.dead = false ∧
      s' = { s.put c { k with dead := true } with freed := s.freed ++ k.sni.toList.map (fun o => (c, o)) } := by
  unfold stepDestroy at h
  split at h
  · simp at h
  · rename_i k hk
    split at h
    · simp at h
    · rename_i hd
      refine ⟨k, hk, by simpa using hd, ?_⟩
      split at h
      · rename_i hn; simp only [Res.ok.injEq] at h; rw [← h, hn]; simp [St.put]
      · rename_i o ho
        split at h
        · simp only [Res.ok.injEq] at h; rw [← h, ho]; simp
        · simp at h

theorem step_eff {s s' : St} {o : Op} (h : step s o = .ok s') : Eff s s' := by
  cases o with
  | setSni c f => simp only [step, Res.ok.injEq] at h; subst h; exact .globals rfl rfl rfl
  | setNpn n => simp only [step, Res.ok.injEq] at h; subst h; exact .globals rfl rfl rfl
  | newServer x d =>
    simp only [step, newCtx] at h
    split at h
    · simp at h
    · simp only [Res.ok.injEq] at h; subst h; exact .globals rfl rfl rfl
  | newClient x d a =>
    simp only [step, newCtx] at h
    split at h
    · simp at h
    · simp only [Res.ok.injEq] at h; subst h; exact .globals rfl rfl rfl
  | accept c x v =>
    simp only [step, newConn] at h
    split at h
    · simp at h
    · rename_i hh
      simp only [Res.ok.injEq] at h; subst h
      refine .new c x true v ?_ rfl rfl rfl
      cases hk : s.conns c <;> simp_all
  | connect c x =>
    simp only [step, newConn] at h
    split at h
    · simp at h
    · rename_i hh
      simp only [Res.ok.injEq] at h; subst h
      refine .new c x false none ?_ rfl rfl rfl
      cases hk : s.conns c <;> simp_all
  | servername c name r =>
    obtain ⟨k, k', b, h1, h2, h3, _, h4⟩ := stepName_ok h
    subst h4
    exact .touch c k k' _ h1 h2 (sni_touch h3) rfl rfl rfl
  | select c name r adv client =>
    obtain ⟨k, k', b, h1, h2, h3, _, h4⟩ := stepSelect_ok h
    subst h4
    exact .touch c k k' _ h1 h2 (alpn_touch h3) rfl rfl rfl
  | destroy c =>
    obtain ⟨k, h1, h2, h4⟩ := stepDestroy_ok h
    subst h4
    exact .die c k h1 h2 rfl rfl rfl

/-! ## What a connection's calls say -/

/-- The invariant of one connection. -/
structure KInv (k : Conn) : Prop where
  prev : ∀ a ∈ k.asks.dropLast, a.obj = none
  cur : k.sni = k.asks.getLast?.bind Ask.obj
  ctx : k.ctx = (taken k).getLast?.getD k.ctx0
  client : k.ex = false → k.asks = []

theorem KInv.touch {k k' : Conn} (h : KInv k) (t : Touch k k') : KInv k' := by
  cases t with
  | same => exact h
  | ask n r ha =>
    obtain ⟨hex, hs⟩ := ha
    refine ⟨?_, ?_, ?_, ?_⟩
    · intro a hm
      simp only [asked, List.dropLast_concat] at hm
      have h1 := h.prev
      have h2 := h.cur
      rw [hs] at h2
      rcases List.eq_nil_or_concat k.asks with hn | ⟨l, b, hl⟩
      · rw [hn] at hm; simp at hm
      · rw [hl] at h1 h2 hm
        simp only [List.concat_eq_append, List.dropLast_concat, List.getLast?_append, List.getLast?_singleton, Option.some_or, Option.bind_some, List.mem_append, List.mem_singleton] at h1 h2 hm
        rcases hm with hm | hm
        · exact h1 a hm
        · subst hm; exact h2.symm
    · simp [asked]
    · have := h.ctx
      simp only [asked, taken, List.filterMap_append, List.filterMap_cons, List.filterMap_nil]
      cases hr : r.ctx with
      | none => simp [taken] at this; simpa using this
      | some x => cases ht : r.took <;> simp [taken] at this ⊢; exact this
    · intro hh
      simp only [asked] at hh
      rw [hex] at hh; simp at hh

theorem given_eq {k : Conn} (h : KInv k) : given k = k.sni.toList := by
  rcases List.eq_nil_or_concat k.asks with hn | ⟨l, b, hl⟩
  · rw [h.cur]; unfold given; rw [hn]; rfl
  · have h1 := h.prev
    rw [hl, List.concat_eq_append, List.dropLast_concat] at h1
    have : l.filterMap Ask.obj = [] := by
      rw [List.filterMap_eq_nil_iff]; exact h1
    rw [h.cur]; unfold given
    rw [hl, List.concat_eq_append, List.filterMap_append, this]
    simp only [List.nil_append, List.getLast?_append, List.getLast?_singleton, Option.some_or, Option.bind_some]
    cases hb : b.obj <;> simp [hb]

/-- The invariant of the whole state. -/
structure Inv (s : St) : Prop where
  conns : ∀ c k, s.conns c = some k → KInv k
  freed : ∀ c, freedOf s c = match s.conns c with
    | some k => if k.dead then given k else []
    | none => []
  ans : ∀ c, s.conns c = none → ∀ a, (c, a) ∉ s.ans

theorem given_dead (k : Conn) : given { k with dead := true } = given k := rfl

theorem freedOf_congr {s s' : St} (h : s'.freed = s.freed) (c : Nat) : freedOf s' c = freedOf s c := by unfold freedOf; rw [h]

theorem freedOf_new {s s' : St} {d : Nat} {o : Option Nat} (h : s'.freed = s.freed ++ o.toList.map (fun o => (d, o))) (c : Nat) :
    freedOf s' c = freedOf s c ++ (if c = d then o.toList else []) := by
  unfold freedOf
  rw [h, List.filterMap_append]
  congr 1
  cases o with
  | none => simp
  | some x => by_cases hc : c = d <;> simp [hc]; intro h2; exact absurd h2.symm hc

theorem Inv.eff {s s' : St} (h : Inv s) (e : Eff s s') : Inv s' := by
  cases e with
  | globals h1 h2 h3 =>
    refine ⟨?_, ?_, ?_⟩
    · rw [h1]; exact h.conns
    · intro c; rw [freedOf_congr h2, h1]; exact h.freed c
    · rw [h1, h3]; exact h.ans
  | new d x ex v h0 h1 h2 h3 =>
    refine ⟨?_, ?_, ?_⟩
    · intro c k hk
      rw [h1] at hk
      simp only [St.put] at hk
      split at hk
      · simp only [Option.some.injEq] at hk; subst hk
        exact ⟨by simp, rfl, by simp [taken], fun _ => rfl⟩
      · exact h.conns c k hk
    · intro c
      rw [freedOf_congr h2, h1, h.freed c]
      simp only [St.put]
      by_cases hc : c = d
      · subst hc; simp [h0]
      · simp [hc]
    · intro c hc
      rw [h1] at hc
      simp only [St.put] at hc
      split at hc
      · simp at hc
      · rw [h3]; exact h.ans c hc
  | touch d k k' a h0 hd ht h1 h2 h3 =>
    have hdd : k'.dead = false := by cases ht <;> simp [asked, hd]
    refine ⟨?_, ?_, ?_⟩
    · intro c q hq
      rw [h1] at hq
      simp only [St.put] at hq
      split at hq
      · simp only [Option.some.injEq] at hq; subst hq; exact (h.conns d k h0).touch ht
      · exact h.conns c q hq
    · intro c
      rw [freedOf_congr h2, h1, h.freed c]
      simp only [St.put]
      by_cases hc : c = d
      · subst hc; simp [h0, hd, hdd]
      · simp [hc]
    · intro c hc
      rw [h1] at hc
      simp only [St.put] at hc
      split at hc
      · simp at hc
      · rename_i hne
        rw [h3]
        intro b hb
        rw [List.mem_append] at hb
        rcases hb with hb | hb
        · exact h.ans c hc b hb
        · simp at hb; exact hne hb.1
  | die d k h0 hd h1 h2 h3 =>
    refine ⟨?_, ?_, ?_⟩
    · intro c q hq
      rw [h1] at hq
      simp only [St.put] at hq
      split at hq
      · simp only [Option.some.injEq] at hq; subst hq
        have hk := h.conns d k h0
        exact ⟨hk.prev, hk.cur, hk.ctx, hk.client⟩
      · exact h.conns c q hq
    · intro c
      rw [freedOf_new h2, h1, h.freed c]
      simp only [St.put]
      by_cases hc : c = d
      · subst hc
        simp only [h0, hd, if_true, Bool.false_eq_true, if_false, List.nil_append]
        rw [given_dead, given_eq (h.conns c k h0)]
      · simp [hc]
    · intro c hc
      rw [h1] at hc
      simp only [St.put] at hc
      split at hc
      · simp at hc
      · rw [h3]; exact h.ans c hc

theorem reach_inv {s : St} (h : Reach s) : Inv s := by
  refine h.invariant (P := Inv) ?_ (fun s o s' hi he => hi.eff (step_eff he))
  exact ⟨by simp, by simp [freedOf], by simp⟩

/-! ## Theorems -/

/-- **C53.** `create_sni` is not called for a connection after it gave an object: every call but the last gave none, and the connection has
the object of the last call.  It is never called for a client connection. -/
theorem sni_asked {s : St} (h : Reach s) {c : Nat} {k : Conn} (hk : s.conns c = some k) :
    (∀ a ∈ k.asks.dropLast, a.obj = none) ∧ k.sni = k.asks.getLast?.bind Ask.obj ∧ (k.ex = false → k.asks = []) :=
  have hi := (reach_inv h).conns c k hk
  ⟨hi.prev, hi.cur, hi.client⟩

/-- **C53.** What `create_sni` gave for a connection is freed once, when the connection is destroyed, and not before; nothing else is. -/
theorem sni_freed_once {s : St} (h : Reach s) (c : Nat) :
    (∀ k, s.conns c = some k → freedOf s c = if k.dead then given k else []) ∧ (s.conns c = none → freedOf s c = []) ∧
    ∀ k, s.conns c = some k → (given k).length ≤ 1 := by
  have hi := reach_inv h
  refine ⟨?_, ?_, ?_⟩
  · intro k hk; have := hi.freed c; rw [hk] at this; exact this
  · intro hk; have := hi.freed c; rw [hk] at this; exact this
  · intro k hk; rw [given_eq (hi.conns c k hk)]; cases k.sni <;> simp

/-- **C53.** A connection uses the last context `create_sni` gave it (and OpenSSL took), or else the one it was made with. -/
theorem sni_context {s : St} (h : Reach s) {c : Nat} {k : Conn} (hk : s.conns c = some k) :
    k.ctx = (taken k).getLast?.getD k.ctx0 := ((reach_inv h).conns c k hk).ctx

/-- **C53.** The server-name callback answers once: it fails the handshake exactly if no object was obtained yet, the client sent no name and the server
rejects that, and otherwise lets it go on.  It calls `create_sni` exactly if there is a name and no object was obtained yet, once, with that
name.  No other connection changes. -/
theorem sni_verdict {s s' : St} {c : Nat} {k : Conn} {name : Option Bytes} {r : Reply} (hk : s.conns c = some k)
    (h : step s (.servername c name r) = .ok s') :
    (s'.ans = s.ans ++ [(c, .fatal)] ∧ Asks k ∧ name = none ∧ k.server = some true ∨
     s'.ans = s.ans ++ [(c, .go)] ∧ ¬(Asks k ∧ name = none ∧ k.server = some true)) ∧
    (∃ k', s'.conns c = some k' ∧
      ((¬Asks k ∨ name = none) ∧ k'.asks = k.asks ∨ ∃ n, Asks k ∧ name = some n ∧ k'.asks = k.asks ++ [⟨n, r.obj, r.ctx, r.took⟩])) ∧
    (∀ d, d ≠ c → s'.conns d = s.conns d) ∧ s'.freed = s.freed := by
  obtain ⟨q, k', b, h1, _, h3, _, h4⟩ := stepName_ok h
  rw [hk] at h1; simp only [Option.some.injEq] at h1; subst h1
  obtain ⟨_, hc⟩ := sni_cases h3
  subst h4
  refine ⟨?_, ⟨k', by simp [St.put], ?_⟩, ?_, rfl⟩
  · rcases hc with ⟨_, hb, _⟩ | ⟨n, _, hn, _, hb⟩
    · cases b with
      | false => left; simpa using hb
      | true => right; simpa using hb
    · right; subst hb; subst hn; simp
  · rcases hc with ⟨e, _, hn⟩ | ⟨n, e, hn, ha, _⟩
    · left; subst e; refine ⟨?_, rfl⟩
      by_cases ha : Asks k'
      · exact Or.inr (hn ha)
      · exact Or.inl ha
    · right; exact ⟨n, ha, hn, by subst e; rfl⟩
  · intro d hd; simp [St.put, hd]

/-- Under the discipline, once `create_sni` is set it stays set. -/
theorem create_stays {s0 s : St} (h : ReachD s0 s) (h0 : s0.create = true) : s.create = true := by
  induction h with
  | refl => exact h0
  | tail o _ hd he ih =>
    cases o with
    | setSni c f => simp only [step, Res.ok.injEq] at he; subst he; exact hd.1 ih
    | setNpn n => simp only [step, Res.ok.injEq] at he; subst he; exact ih
    | newServer x d => simp only [step, newCtx] at he; split at he <;> simp at he; subst he; exact ih
    | newClient x d a => simp only [step, newCtx] at he; split at he <;> simp at he; subst he; exact ih
    | accept c x v => simp only [step, newConn] at he; split at he <;> simp at he; subst he; exact ih
    | connect c x => simp only [step, newConn] at he; split at he <;> simp at he; subst he; exact ih
    | servername c n r => obtain ⟨_, _, _, _, _, _, _, h4⟩ := stepName_ok he; subst h4; exact ih
    | select c n r a cl => obtain ⟨_, _, _, _, _, _, _, h4⟩ := stepSelect_ok he; subst h4; exact ih
    | destroy c => obtain ⟨_, _, _, h4⟩ := stepDestroy_ok he; subst h4; exact ih

theorem alpn_cases {s : St} {k k' : Conn} {name : Option Bytes} {r : Reply} {adv client a} (h : alpn s k name r adv client = .ok (k', a)) :
    (s.create = true ∧ sni true k name r = .ok (k', false) ∧ a = .fatal) ∨
    (s.create = true ∧ sni true k name r = .ok (k', true) ∧ a = pick s k' adv client) ∨
    (s.create = false ∧ k' = k ∧ a = pick s k adv client) := by
  unfold alpn at h
  split at h
  · rename_i hc
    rw [hc] at h
    split at h
    · split at h
      · rename_i hh _; simp only [Res.ok.injEq, Prod.mk.injEq] at h; obtain ⟨rfl, rfl⟩ := h; exact Or.inr (Or.inl ⟨hc, hh, rfl⟩)
      · simp at h
    · rename_i hh; simp only [Res.ok.injEq, Prod.mk.injEq] at h; obtain ⟨rfl, rfl⟩ := h; exact Or.inl ⟨hc, hh, rfl⟩
    · simp at h
    · simp at h
  · rename_i hc
    split at h
    · simp only [Res.ok.injEq, Prod.mk.injEq] at h; obtain ⟨rfl, rfl⟩ := h
      exact Or.inr (Or.inr ⟨by simpa using hc, rfl, rfl⟩)
    · simp at h

/-- The invariant behind `nosni_rejected`. -/
structure RInv (s : St) : Prop where
  base : Inv s
  create : s.create = true
  rej : ∀ c k, s.conns c = some k → k.ex = true → k.server = some true → k.asks = [] → ∀ a, (c, a) ∈ s.ans → a = .fatal

theorem rej_put {s s' : St} {c : Nat} {k k' : Conn} {a0 : Ans} (h : RInv s) (hk : s.conns c = some k) (hs' : s' = { s.put c k' with ans := s.ans ++ [(c, a0)] })
    (hkk : k'.ex = true → k'.server = some true → k'.asks = [] → k' = k ∧ a0 = .fatal) :
    ∀ d q, s'.conns d = some q → q.ex = true → q.server = some true → q.asks = [] → ∀ a, (d, a) ∈ s'.ans → a = .fatal := by
  subst hs'
  intro d q hq he hv ha a hm
  simp only [St.put] at hq hm
  rw [List.mem_append] at hm
  split at hq
  · rename_i hdc; subst hdc
    simp only [Option.some.injEq] at hq; subst hq
    obtain ⟨e, e2⟩ := hkk he hv ha
    rcases hm with hm | hm
    · subst e; exact h.rej d k' hk he hv ha a hm
    · simp at hm; rw [hm]; exact e2
  · rename_i hdc
    rcases hm with hm | hm
    · exact h.rej d q hq he hv ha a hm
    · simp at hm; exact absurd hm.1 hdc

theorem sni_rej {k k' : Conn} {name : Option Bytes} {r : Reply} {b : Bool} (hi : KInv k) (h : sni true k name r = .ok (k', b)) :
    k'.ex = true → k'.server = some true → k'.asks = [] → k' = k ∧ b = false := by
  intro he hv ha
  rcases (sni_cases h).2 with ⟨e, hb, hn⟩ | ⟨n, e, _, _, _⟩
  · subst e
    have hcur := hi.cur
    rw [ha] at hcur
    have hA : Asks k' := ⟨he, by simpa using hcur⟩
    exact ⟨rfl, hb.mpr ⟨hA, hn hA, hv⟩⟩
  · subst e; simp [asked] at ha

/-- **C53.** If `create_sni` was set from the start, a connection of a server that rejects clients without a name is answered with failure every time as
long as no name was seen. -/
theorem nosni_rejected {n : Bool} {s : St} (h : ReachD { create := true, free := true, npn := n } s) {c : Nat} {k : Conn} (hk : s.conns c = some k)
    (he : k.ex = true) (hv : k.server = some true) (ha : k.asks = []) : ∀ a, (c, a) ∈ s.ans → a = .fatal := by
  have main : RInv s := by
    clear hk he hv ha
    induction h with
    | refl => exact ⟨⟨by simp, by simp [freedOf], by simp⟩, rfl, by simp⟩
    | @tail s s' o hr hd hs ih =>
      have hb := ih.base.eff (step_eff hs)
      refine ⟨hb, create_stays (.tail o hr hd hs) rfl, ?_⟩
      cases o with
      | setSni c f => simp only [step, Res.ok.injEq] at hs; subst hs; exact ih.rej
      | setNpn n => simp only [step, Res.ok.injEq] at hs; subst hs; exact ih.rej
      | newServer x d => simp only [step, newCtx] at hs; split at hs <;> simp at hs; subst hs; exact ih.rej
      | newClient x d a => simp only [step, newCtx] at hs; split at hs <;> simp at hs; subst hs; exact ih.rej
      | accept c x v =>
        simp only [step, newConn] at hs
        split at hs
        · simp at hs
        · rename_i hn
          simp only [Res.ok.injEq] at hs; subst hs
          intro d q hq he hv ha a hm
          simp only [St.put] at hq hm
          split at hq
          · rename_i hdc; subst hdc
            have : s.conns d = none := by cases hx : s.conns d <;> simp_all
            exact absurd hm (ih.base.ans d this a)
          · exact ih.rej d q hq he hv ha a hm
      | connect c x =>
        simp only [step, newConn] at hs
        split at hs
        · simp at hs
        · simp only [Res.ok.injEq] at hs; subst hs
          intro d q hq he hv ha a hm
          simp only [St.put] at hq hm
          split at hq
          · simp only [Option.some.injEq] at hq; subst hq; simp at he
          · exact ih.rej d q hq he hv ha a hm
      | servername c n r =>
        obtain ⟨k, k', b, h1, _, h3, _, h4⟩ := stepName_ok hs
        rw [ih.create] at h3
        refine rej_put ih h1 h4 (fun e v a => ?_)
        obtain ⟨e1, e2⟩ := sni_rej (ih.base.conns c k h1) h3 e v a
        exact ⟨e1, by simp [e2]⟩
      | select c n r adv cl =>
        obtain ⟨k, k', b, h1, _, h3, _, h4⟩ := stepSelect_ok hs
        refine rej_put ih h1 h4 (fun e v a => ?_)
        rcases alpn_cases h3 with ⟨_, hq, hf⟩ | ⟨_, hq, _⟩ | ⟨hq, _⟩
        · exact ⟨(sni_rej (ih.base.conns c k h1) hq e v a).1, hf⟩
        · exact absurd (sni_rej (ih.base.conns c k h1) hq e v a).2 (by simp)
        · rw [ih.create] at hq; simp at hq
      | destroy c =>
        obtain ⟨k, h1, _, h4⟩ := stepDestroy_ok hs
        subst h4
        intro d q hq he hv ha a hm
        simp only [St.put] at hq hm
        split at hq
        · rename_i hdc; subst hdc
          simp only [Option.some.injEq] at hq; subst hq
          exact ih.rej d k h1 he hv ha a hm
        · exact ih.rej d q hq he hv ha a hm
  exact main.rej c k hk he hv ha

/-! ### Protocols -/

theorem ofNat_length {p : Bytes} (h : p.length < 256) : (UInt8.ofNat p.length).toNat = p.length := by
  rw [UInt8.toNat_ofNat']; omega

theorem names_wire : ∀ (ps : List Bytes), Fits ps → ∀ m, (wire ps).length ≤ m → names m (wire ps) = ps := by
  intro ps
  induction ps with
  | nil => intro _ m _; cases m <;> rfl
  | cons p ps ih =>
    intro hf m hm
    cases m with
    | zero => simp [wire] at hm
    | succ m =>
      have hp : p.length < 256 := hf p (by simp)
      simp only [wire, names, ofNat_length hp]
      simp only [wire, List.length_cons, List.length_append] at hm
      rw [if_neg (by simp), List.take_left, List.drop_left, ih (fun q hq => hf q (by simp [hq])) m (by omega)]

theorem dflt_wire : dflt = wire [http11] := by decide

theorem find_chosen {S C : List Bytes} : ∀ p, S.find? (fun p => decide (p ∈ C)) = some p ↔ Chosen S C p := by
  intro p
  rw [List.find?_eq_some_iff_append]
  constructor
  · rintro ⟨h1, as, bs, h2, h3⟩
    exact ⟨as, bs, h2, by simpa using h1, fun q hq => by simpa using h3 q hq⟩
  · rintro ⟨as, bs, h2, h1, h3⟩
    exact ⟨by simpa using h1, as, bs, h2, fun q hq => by simpa using h3 q hq⟩

theorem select_wire {S C : List Bytes} (hS : Fits S) (hC : Fits C) :
    selectNext (wire S) (wire C) = S.find? (fun p => decide (p ∈ C)) := by
  unfold selectNext
  rw [names_wire S hS _ (Nat.le_refl _), names_wire C hC _ (Nat.le_refl _)]

/-- **C53.** The protocol callback on a server connection.  If it fails the handshake, that is for a missing server name.  Otherwise, where `S` are
the protocols of the context the connection has *after* the server name was looked at (`http/1.1` alone if the program's callback gives none)
and `C` those the client offers: the answer is the first of `S` that is in `C`, and no protocol if none is. -/
theorem alpn_choice {s s' : St} {c : Nat} {k : Conn} {name : Option Bytes} {r : Reply} {adv : Option Nat → Option Bytes} {C : List Bytes}
    (hk : s.conns c = some k) (hC : Fits C) (h : step s (.select c name r adv (wire C)) = .ok s') :
    ∃ k' a, s'.conns c = some k' ∧ s'.ans = s.ans ++ [(c, a)] ∧
      (a = .fatal ↔ s.create = true ∧ Asks k ∧ name = none ∧ k.server = some true) ∧
      (∀ S, Fits S → (adv ((s.ctxs k'.ctx).bind Ctx.data) = some (wire S) ∨ adv ((s.ctxs k'.ctx).bind Ctx.data) = none ∧ S = [http11]) → a ≠ .fatal →
        (∀ p, a = .proto p ↔ Chosen S C p) ∧ (a = .noack ↔ ∀ p ∈ S, p ∉ C)) := by
  obtain ⟨q, k', a, h1, _, h3, _, h4⟩ := stepSelect_ok h
  rw [hk] at h1; simp only [Option.some.injEq] at h1; subst h1
  refine ⟨k', a, by rw [h4]; simp [St.put], by rw [h4], ?_, ?_⟩
  · have hp : ∀ q, pick s q adv (wire C) ≠ .fatal := by intro q; unfold pick; split <;> simp
    rcases alpn_cases h3 with ⟨hc, hq, hf⟩ | ⟨hc, hq, hf⟩ | ⟨hc, hq, hf⟩
    · rcases (sni_cases hq).2 with ⟨_, hb, _⟩ | ⟨n, _, _, _, hb⟩
      · simp only [true_iff] at hb; exact ⟨fun _ => ⟨hc, hb⟩, fun _ => hf⟩
      · simp at hb
    · constructor
      · intro ha; rw [ha] at hf; exact absurd hf.symm (hp k')
      · rintro ⟨_, ha, hn, hv⟩
        rcases (sni_cases hq).2 with ⟨_, hb, _⟩ | ⟨n, _, hn', _, _⟩
        · exact absurd (hb.mpr ⟨ha, hn, hv⟩) (by simp)
        · rw [hn] at hn'; simp at hn'
    · constructor
      · intro ha; rw [ha] at hf; exact absurd hf.symm (hp k)
      · rintro ⟨hc', _⟩; rw [hc] at hc'; simp at hc'
  · intro S hS hadv hne
    have hpick : a = pick s k' adv (wire C) := by
      rcases alpn_cases h3 with ⟨_, _, hf⟩ | ⟨_, _, hf⟩ | ⟨_, hq, hf⟩
      · exact absurd hf hne
      · exact hf
      · rw [hq]; exact hf
    have hsel : selectNext ((adv ((s.ctxs k'.ctx).bind Ctx.data)).getD dflt) (wire C) = S.find? (fun p => decide (p ∈ C)) := by
      rcases hadv with h | ⟨h, e⟩
      · rw [h]; exact select_wire hS hC
      · rw [h, Option.getD_none, dflt_wire, ← e]; exact select_wire hS hC
    unfold pick at hpick
    rw [hsel] at hpick
    constructor
    · intro p
      rw [← find_chosen p, hpick]
      cases S.find? (fun p => decide (p ∈ C)) <;> simp
    · rw [hpick]
      cases hf : S.find? (fun p => decide (p ∈ C)) with
      | none => simp only [true_iff]; rw [List.find?_eq_none] at hf; simpa using hf
      | some p =>
        simp only [reduceCtorEq, false_iff]
        intro hall
        exact hall p (List.mem_of_find?_eq_some hf) (by simpa using List.find?_some hf)

/-- **C53.** The preferred protocol is unique and exists exactly if the two lists meet. -/
theorem chosen_unique {S C : List Bytes} {p q : Bytes} (hp : Chosen S C p) (hq : Chosen S C q) : p = q := by
  rw [← find_chosen] at hp hq; rw [hp] at hq; simpa using hq

/-- **C53.** A new client context with data offers exactly what the program's callback gives for it; without data nothing is offered. -/
theorem client_offer {s s' : St} {x : Nat} {data : Option Nat} {adv : Option Bytes} (h : step s (.newClient x data adv) = .ok s') :
    ∃ d, s'.ctxs x = some d ∧ d.data = data ∧ d.sniCb = false ∧ d.alpnCb = false ∧
      d.offer = (if s.npn = true ∧ data.isSome = true then some (adv.getD []) else none) := by
  simp only [step, newCtx] at h
  split at h
  · simp at h
  · simp only [Res.ok.injEq] at h
    subst h
    exact ⟨_, by simp; rfl, rfl, rfl, rfl, by simp⟩

/-! ### No crash -/

/-- The invariant behind `sni_no_crash`. -/
structure DInv (s : St) : Prop where
  sniReg : ∀ x, sniOf s x = true → s.create = true
  alpnReg : ∀ x, alpnOf s x = true → s.npn = true
  freeSet : s.create = true → s.free = true
  obj : ∀ c k, s.conns c = some k → k.sni.isSome = true → s.free = true
  srv : ∀ c k, s.conns c = some k → k.ex = true → k.server.isSome = true

theorem dinv_put {s : St} {c : Nat} {k k' : Conn} {a : List (Nat × Ans)} (h : DInv s) (hk : s.conns c = some k) (he : k'.ex = k.ex) (hv : k'.server = k.server)
    (hs : k'.sni.isSome = true → s.free = true) : DInv { s.put c k' with ans := a } := by
  refine ⟨h.sniReg, h.alpnReg, h.freeSet, ?_, ?_⟩
  · intro d q hq hs'
    simp only [St.put] at hq
    split at hq
    · simp only [Option.some.injEq] at hq; subst hq; exact hs hs'
    · exact h.obj d q hq hs'
  · intro d q hq hs'
    simp only [St.put] at hq
    split at hq
    · simp only [Option.some.injEq] at hq; subst hq
      rw [hv]; rw [he] at hs'; exact h.srv c k hk hs'
    · exact h.srv d q hq hs'

theorem touch_keeps {k k' : Conn} (t : Touch k k') : k'.ex = k.ex ∧ k'.server = k.server := by cases t <;> exact ⟨rfl, rfl⟩

theorem dinv_new {s s' : St} {c : Nat} {k : Conn} (h : DInv s) (hs' : s' = s.put c k) (hn : k.sni = none) (hv : k.ex = true → k.server.isSome = true) : DInv s' := by
  subst hs'
  refine ⟨h.sniReg, h.alpnReg, h.freeSet, ?_, ?_⟩
  · intro d q hq hs
    simp only [St.put] at hq
    split at hq
    · simp only [Option.some.injEq] at hq; subst hq; rw [hn] at hs; simp at hs
    · exact h.obj d q hq hs
  · intro d q hq hs
    simp only [St.put] at hq
    split at hq
    · simp only [Option.some.injEq] at hq; subst hq; exact hv hs
    · exact h.srv d q hq hs

theorem dinv_ctx {s s' : St} {x : Nat} {d : Ctx} (h : DInv s) (hs : newCtx s x d = .ok s') (h1 : d.sniCb = true → s.create = true) (h2 : d.alpnCb = true → s.npn = true) : DInv s' := by
  unfold newCtx at hs
  split at hs
  · simp at hs
  · simp only [Res.ok.injEq] at hs; subst hs
    refine ⟨?_, ?_, h.freeSet, h.obj, h.srv⟩
    · intro y hy
      simp only [sniOf] at hy
      by_cases hyx : y = x
      · rw [if_pos hyx] at hy; exact h1 hy
      · rw [if_neg hyx] at hy; exact h.sniReg y hy
    · intro y hy
      simp only [alpnOf] at hy
      by_cases hyx : y = x
      · rw [if_pos hyx] at hy; exact h2 hy
      · rw [if_neg hyx] at hy; exact h.alpnReg y hy

theorem reachD_dinv {s : St} (h : ReachD {} s) : DInv s := by
  induction h with
  | refl => exact ⟨by simp [sniOf], by simp [alpnOf], by simp, by simp, by simp⟩
  | @tail s s' o _ hd hs ih =>
    cases o with
    | setSni c f =>
      simp only [step, Res.ok.injEq] at hs; subst hs
      obtain ⟨d1, d2, d3⟩ := hd
      exact ⟨fun x hx => d1 (ih.sniReg x hx), ih.alpnReg, d3, fun c k hk hs => d2 (ih.obj c k hk hs), ih.srv⟩
    | setNpn n =>
      simp only [step, Res.ok.injEq] at hs; subst hs
      exact ⟨ih.sniReg, fun x hx => hd (ih.alpnReg x hx), ih.freeSet, ih.obj, ih.srv⟩
    | newServer x d => exact dinv_ctx ih hs (by simp) (by simp; intro a _; exact a)
    | newClient x d a => exact dinv_ctx ih hs (by simp) (by simp)
    | accept c x v =>
      simp only [step, newConn] at hs
      split at hs
      · simp at hs
      · simp only [Res.ok.injEq] at hs
        exact dinv_new ih hs.symm rfl (fun _ => hd)
    | connect c x =>
      simp only [step, newConn] at hs
      split at hs
      · simp at hs
      · simp only [Res.ok.injEq] at hs
        exact dinv_new ih hs.symm rfl (by simp)
    | servername c n r =>
      obtain ⟨k, k', b, h1, _, h3, hreg, h4⟩ := stepName_ok hs
      subst h4
      have hf : s.free = true := by
        rcases hreg with hreg | hreg <;> exact ih.freeSet (ih.sniReg _ hreg)
      obtain ⟨e1, e2⟩ := touch_keeps (sni_touch h3)
      exact dinv_put ih h1 e1 e2 (fun _ => hf)
    | select c n r adv cl =>
      obtain ⟨k, k', b, h1, _, h3, _, h4⟩ := stepSelect_ok hs
      subst h4
      obtain ⟨e1, e2⟩ := touch_keeps (alpn_touch h3)
      refine dinv_put ih h1 e1 e2 (fun hx => ?_)
      rcases alpn_cases h3 with ⟨hc, _⟩ | ⟨hc, _⟩ | ⟨_, hq, _⟩
      · exact ih.freeSet hc
      · exact ih.freeSet hc
      · rw [hq] at hx; exact ih.obj c k h1 hx
    | destroy c =>
      obtain ⟨k, h1, _, h4⟩ := stepDestroy_ok hs
      subst h4
      have := dinv_put (a := s.ans) (k' := { k with dead := true }) ih h1 rfl rfl (ih.obj c k h1)
      exact ⟨this.sniReg, this.alpnReg, this.freeSet, this.obj, this.srv⟩

theorem sni_no_ub {create : Bool} {k : Conn} {name : Option Bytes} {r : Reply} (hc : create = true) (hv : k.ex = true → k.server.isSome = true) :
    ∃ k' b, sni create k name r = .ok (k', b) := by
  unfold sni
  rw [hc]
  simp only [Bool.not_true, Bool.false_eq_true, if_false]
  split
  · exact ⟨_, _, rfl⟩
  · rename_i hh
    have : k.ex = true := by cases hx : k.ex <;> simp_all
    have := hv this
    cases hs : k.server with
    | none => rw [hs] at this; simp at this
    | some b => cases name <;> exact ⟨_, _, rfl⟩

/-- **C53.** Under the calling discipline no callback and no destroy crashes: no NULL callback is called, no NULL server is read. -/
theorem sni_no_crash {s : St} (h : ReachD {} s) (o : Op) : step s o ≠ .ub := by
  have hi := reachD_dinv h
  cases o with
  | setSni c f => simp [step]
  | setNpn n => simp [step]
  | newServer x d => simp only [step, newCtx]; split <;> simp
  | newClient x d a => simp only [step, newCtx]; split <;> simp
  | accept c x v => simp only [step, newConn]; split <;> simp
  | connect c x => simp only [step, newConn]; split <;> simp
  | servername c n r =>
    simp only [step, stepName]
    split
    · simp
    · rename_i k hk
      split
      · simp
      · rename_i hh
        have hreg : sniOf s k.ctx0 = true ∨ sniOf s k.ctx = true := by
          cases h1 : sniOf s k.ctx0 <;> cases h2 : sniOf s k.ctx <;> simp_all
        have hc : s.create = true := by rcases hreg with hreg | hreg <;> exact hi.sniReg _ hreg
        obtain ⟨k', b, e⟩ := sni_no_ub (name := n) (r := r) hc (hi.srv c k hk)
        rw [e]; simp
  | select c n r adv cl =>
    simp only [step, stepSelect]
    split
    · simp
    · rename_i k hk
      split
      · simp
      · rename_i hh
        have hreg : alpnOf s k.ctx = true := by cases h1 : alpnOf s k.ctx <;> simp_all
        have hn : s.npn = true := hi.alpnReg _ hreg
        unfold alpn
        cases hc : s.create with
        | false => simp [hn]
        | true =>
          obtain ⟨k', b, e⟩ := sni_no_ub (create := true) (name := n) (r := r) rfl (hi.srv c k hk)
          simp only [if_true, e, hn]
          cases b <;> simp
  | destroy c =>
    simp only [step, stepDestroy]
    split
    · simp
    · rename_i k hk
      split
      · simp
      · split
        · simp
        · rename_i o ho
          rw [hi.obj c k hk (by rw [ho]; rfl)]
          simp

/-! ## The hypotheses are met -/

/-- What is compared in the examples. -/
structure Obs where
  ans : List (Nat × Ans)
  freed : List (Nat × Nat)
  c1 : Option Conn
  c2 : Option Conn
  deriving DecidableEq

/-- Observes a run. -/
def obs (r : Option St) : Option Obs := r.map (fun s => ⟨s.ans, s.freed, s.conns 1, s.conns 2⟩)

/-- `h2` -/
def h2 : Bytes := [0x68, 0x32]
/-- A host name. -/
def host : Bytes := [0x61]
/-- The program's `npn`: `h2` and `http/1.1` for data 7, nothing otherwise. -/
def adv7 : Option Nat → Option Bytes := fun d => if d = some 7 then some (wire [h2, http11]) else none

/-- Two contexts, two connections to a rejecting server. -/
def demo : List Op :=
  [.setSni true true, .setNpn true, .newServer 0 (some 5), .newServer 9 (some 7), .accept 1 0 (some true), .accept 2 0 (some true),
   .servername 1 (some host) ⟨some 33, some 9, true⟩, .servername 2 none ⟨none, none, false⟩,
   .select 1 (some host) ⟨some 44, none, false⟩ adv7 (wire [http11, h2]),
   .select 2 (some host) ⟨none, none, false⟩ adv7 (wire [h2]),
   .destroy 1, .destroy 2]

/-- The first connection gets object 33 and context 9, and `h2` from the list of that context, though the client prefers `http/1.1`; `create_sni` is
asked once; the object is freed once.  The second is refused while it has no name; then its context offers only `http/1.1` and no protocol is agreed. -/
example : obs (run step {} demo) = some ⟨[(1, .go), (2, .fatal), (1, .proto h2), (2, .noack)], [(1, 33)],
    some ⟨0, 9, true, some true, some 33, true, [⟨host, some 33, some 9, true⟩]⟩,
    some ⟨0, 0, true, some true, none, true, [⟨host, none, none, false⟩]⟩⟩ := by decide +kernel

/-- The discipline is met by that run. -/
example : ReachD {} ((run step {} (demo.take 6)).getD {}) := by
  refine .tail (s := (run step {} (demo.take 5)).getD {}) (.accept 2 0 (some true)) ?_ rfl rfl
  refine .tail (s := (run step {} (demo.take 4)).getD {}) (.accept 1 0 (some true)) ?_ rfl rfl
  refine .tail (s := (run step {} (demo.take 3)).getD {}) (.newServer 9 (some 7)) ?_ trivial rfl
  refine .tail (s := (run step {} (demo.take 2)).getD {}) (.newServer 0 (some 5)) ?_ trivial rfl
  refine .tail (s := (run step {} (demo.take 1)).getD {}) (.setNpn true) ?_ (by simp [Disc]) rfl
  exact .tail (.setSni true true) .refl (by simp [Disc]) rfl

/-- `nosni_rejected` is met: refused by both callbacks. -/
example : ∃ s k, ReachD { create := true, free := true, npn := true } s ∧ s.conns 1 = some k ∧ k.ex = true ∧ k.server = some true ∧ k.asks = [] ∧
    s.ans = [(1, .fatal), (1, .fatal)] := by
  refine ⟨_, _, .tail (.select 1 none ⟨none, none, false⟩ adv7 []) (.tail (.servername 1 none ⟨none, none, false⟩)
    (.tail (.accept 1 0 (some true)) (.tail (.newServer 0 (some 5)) .refl trivial rfl) rfl rfl) trivial rfl) trivial rfl, rfl, rfl, rfl, rfl, rfl⟩

example : Fits [h2, http11] ∧ Chosen [h2, http11] [http11, h2] h2 := by
  constructor
  · unfold Fits; decide
  · exact ⟨[], [http11], rfl, by decide, by simp⟩

/-! ## Findings -/

/-- **Finding (C53).** A `create_sni` that gives a context but no object is asked again by the protocol callback of the same handshake, with the same name:
`c->sni` is the only mark that it was asked. -/
theorem sni_asked_twice : ∃ s k, ReachD {} s ∧ s.conns 1 = some k ∧
    k.asks = [⟨host, none, some 9, true⟩, ⟨host, none, some 9, true⟩] := by
  refine ⟨_, _, .tail (.select 1 (some host) ⟨none, some 9, true⟩ adv7 []) (.tail (.servername 1 (some host) ⟨none, some 9, true⟩)
    (.tail (.accept 1 0 (some true)) (.tail (.newServer 9 (some 7)) (.tail (.newServer 0 (some 5)) (.tail (.setNpn true) (.tail (.setSni true true) .refl
      (by simp [Disc]) rfl) (by simp [Disc]) rfl) trivial rfl) trivial rfl) rfl rfl) trivial rfl) trivial rfl, rfl, rfl⟩

/-- **Finding (C53).** `kssl_set_sni_callback(NULL, NULL)` while contexts made before it are in use makes the next handshake that sends a server name fail the
assertion (or call NULL), and destroying a connection that has an object calls NULL. -/
theorem unset_sni_crashes : ∃ s, Reach s ∧ step s (.servername 2 none ⟨none, none, false⟩) = .ub ∧ step s (.destroy 1) = .ub := by
  refine ⟨_, reachable_of_run (os := [.setSni true true, .newServer 0 none, .accept 1 0 (some false), .accept 2 0 (some false),
    .servername 1 (some host) ⟨some 33, none, false⟩, .setSni false false]) rfl, rfl, rfl⟩

/-- **Finding (C53).** A connection that was not accepted by a `kserver` (its `server` is NULL) and is made a TLS server with `kconnection_ssl_accept` crashes in the
server-name callback. -/
theorem no_server_crashes : ∃ s, Reach s ∧ step s (.servername 1 none ⟨none, none, false⟩) = .ub ∧
    step s (.servername 1 (some host) ⟨none, none, false⟩) = .ub := by
  refine ⟨_, reachable_of_run (os := [.setSni true true, .newServer 0 none, .accept 1 0 none]) rfl, rfl, rfl⟩

end Kasync.Sni
