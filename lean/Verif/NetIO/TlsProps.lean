import Verif.NetIO.Tls
import Verif.NetIO.FullProps

/-! # C35: gather and scatter report an exact prefix -/

namespace Kasync.NetIO

theorem gotOr_pos {got x : Int} (h : 0 < got) : gotOr got x = got := if_pos h
theorem gotOr_zero {x : Int} : gotOr 0 x = x := if_neg (by omega)

/-! ## Writing -/

/-- what one buffer does: `k` bytes of it are written -/
theorem sslWrite1_spec (bio early : Bool) (rs : List Int) (hot : Buf) (len got : Int) (h0 : 0 ≤ len) (hl : len ≤ hot.length) (hg : 0 ≤ got)
    (hb : bio = true → got ≤ 65536) :
    ∃ k : Nat, (sslWrite1 bio early rs hot len got).wire = hot.take k ∧ (k : Int) ≤ len ∧ (bio = true → got + k ≤ 65536) ∧
      ((sslWrite1 bio early rs hot len got).ret = none →
        (sslWrite1 bio early rs hot len got).got = got + k ∧ ((k : Int) = len ∨ (bio = true ∧ got + k = 65536))) ∧
      (∀ n, (sslWrite1 bio early rs hot len got).ret = some n → (0 < got + k → n = got + k) ∧ (got + k = 0 → n ≤ 0)) := by
  induction rs generalizing hot len got with
  | nil =>
    unfold sslWrite1
    split
    · split
      · refine ⟨0, by simp, by omega, by simpa using hb, by simp, ?_⟩
        intro n hn; simp at hn; subst hn; constructor <;> intros <;> omega
      · refine ⟨0, by simp, by omega, by simpa using hb, by simp, ?_⟩
        intro n hn; simp at hn; subst hn; simp only [gotOr]; grind
    · refine ⟨0, by simp, by omega, by simpa using hb, ?_, by simp⟩
      intro _; simp; omega
  | cons r rs ih =>
    unfold sslWrite1
    split
    · split
      · refine ⟨0, by simp, by omega, by simpa using hb, by simp, ?_⟩
        intro n hn; simp at hn; subst hn; constructor <;> intros <;> omega
      · rename_i hbl
        have hbl' : bio = true → 0 < 65536 - got := fun h => by
          have : ¬ (65536 - got ≤ 0) := fun h2 => hbl ⟨h, h2⟩
          omega
        dsimp only
        generalize hlen : (if bio = true then min (65536 - got) len else len) = len'
        have hlen1 : len' ≤ len := by rw [← hlen]; split <;> omega
        have hlen2 : 0 < len' := by
          rw [← hlen]; split
          · rename_i h; have := hbl' h; omega
          · omega
        have hlen3 : bio = true → len' ≤ 65536 - got := fun h => by rw [← hlen, if_pos h]; omega
        have hlen4 : len' = len ∨ (bio = true ∧ len' = 65536 - got) := by
          rw [← hlen]; split
          · rename_i h
            by_cases h2 : 65536 - got ≤ len
            · exact .inr ⟨h, by omega⟩
            · exact .inl (by omega)
          · exact .inl rfl
        split
        · split
          · rename_i hpos
            simp only [granted] at *
            generalize hn : min r len' = n at *
            obtain ⟨k, h1, h2, h3, h4, h5⟩ := ih (hot.drop n.toNat) (len' - n) (got + n) (by omega) (by simp; omega) (by omega)
              (fun h => by have := hlen3 h; omega)
            refine ⟨n.toNat + k, ?_, by omega, fun h => by have := h3 h; omega, ?_, ?_⟩
            · rw [h1, List.take_add]
            · intro hr
              obtain ⟨e1, e2⟩ := h4 hr
              refine ⟨by rw [e1]; omega, ?_⟩
              rcases e2 with e2 | ⟨e2, e3⟩
              · rcases hlen4 with h | ⟨h, h'⟩
                · left; omega
                · right; exact ⟨h, by omega⟩
              · right; exact ⟨e2, by omega⟩
            · intro m hm
              obtain ⟨e1, e2⟩ := h5 m hm
              constructor
              · intro h; rw [e1 (by omega)]; omega
              · intro h; omega
          · refine ⟨0, by simp, by omega, by simpa using hb, by simp, ?_⟩
            intro n hn; simp at hn; subst hn; simp only [gotOr]; grind
        · split
          · rename_i hne
            simp only [granted] at *
            refine ⟨(min r len').toNat, rfl, by omega, fun h => by have := hlen3 h; omega, by simp, ?_⟩
            intro n hn; simp at hn; subst hn; simp only [gotOr]; grind
          · rename_i heq
            simp only [granted] at *
            refine ⟨(min r len').toNat, rfl, by omega, fun h => by have := hlen3 h; omega, ?_, by simp⟩
            intro _
            refine ⟨by simp; omega, ?_⟩
            rcases hlen4 with h | ⟨h, h'⟩
            · left; omega
            · right; exact ⟨h, by omega⟩
    · refine ⟨0, by simp, by omega, by simpa using hb, ?_, by simp⟩
      intro _; simp; omega

/-- once 64 KB are buffered nothing more is written -/
theorem sslWritevFrom_full (early : Bool) (bufs : List Buf) (rs : List Int) {g : Int} (hg : 65536 ≤ g) : sslWritevFrom true early bufs rs g = (g, []) := by
  induction bufs generalizing rs with
  | nil => rfl
  | cons v vs ih =>
    unfold sslWritevFrom
    by_cases hl : toInt32 v.length > 0
    · have e : sslWrite1 true early rs v (toInt32 v.length) g = ⟨some g, g, rs, []⟩ := by
        cases rs <;> (unfold sslWrite1; rw [if_pos hl, if_pos ⟨rfl, by omega⟩])
      rw [e]
    · have e : sslWrite1 true early rs v (toInt32 v.length) g = ⟨none, g, rs, []⟩ := by
        cases rs <;> (unfold sslWrite1; rw [if_neg hl])
      rw [e]
      dsimp only
      rw [ih]
      rfl

theorem sslWritevFrom_spec (bio early : Bool) (bufs : List Buf) (rs : List Int) (got : Int) (hs : ∀ v ∈ bufs, v.length < 2 ^ 31) (hg : 0 ≤ got)
    (hb : bio = true → got ≤ 65536) :
    ∃ k : Nat, (sslWritevFrom bio early bufs rs got).2 = (bytes bufs).take k ∧ k ≤ (bytes bufs).length ∧ (bio = true → got + k ≤ 65536) ∧
      (0 < got + k → (sslWritevFrom bio early bufs rs got).1 = got + k) ∧ (got + k = 0 → (sslWritevFrom bio early bufs rs got).1 ≤ 0) := by
  induction bufs generalizing rs got with
  | nil => exact ⟨0, by simp [sslWritevFrom], by omega, by simpa using hb, by simp [sslWritevFrom], fun h => by simp [sslWritevFrom]; omega⟩
  | cons v vs ih =>
    unfold sslWritevFrom
    rw [toInt32_small (hs v (by simp))]
    obtain ⟨k, h1, h2, h3, h4, h5⟩ := sslWrite1_spec bio early rs v v.length got (by omega) (by omega) hg hb
    have hbl : (bytes (v :: vs)).length = v.length + (bytes vs).length := by simp [bytes]
    dsimp only
    split
    · rename_i n hn
      refine ⟨k, ?_, by omega, h3, (h5 n hn).1, (h5 n hn).2⟩
      dsimp only
      rw [h1]
      simp only [bytes, List.flatten_cons]
      rw [List.take_append_of_le_length (by omega)]
    · rename_i hn
      obtain ⟨e1, e2⟩ := h4 hn
      rw [e1, h1]
      rcases e2 with e2 | ⟨e2, e3⟩
      · obtain ⟨m, g1, g2, g3, g4, g5⟩ := ih (rs := (sslWrite1 bio early rs v v.length got).rs) (got := got + k) (fun w hw => hs w (by simp [hw])) (by omega) h3
        refine ⟨k + m, ?_, by omega, fun h => by have := g3 h; omega, fun h => by rw [g4 (by omega)]; omega, fun h => g5 (by omega)⟩
        have ek : k = v.length := by omega
        subst ek
        rw [g1]
        simp only [bytes, List.flatten_cons]
        rw [List.take_length, List.take_length_add_append]
      · subst e2
        rw [sslWritevFrom_full _ _ _ (by omega)]
        refine ⟨k, ?_, by omega, h3, fun _ => by dsimp only, fun _ => by omega⟩
        simp only [bytes, List.flatten_cons, List.append_nil]
        rw [List.take_append_of_le_length (by omega)]

/-- **C35.** Whatever OpenSSL answers, what `kgl_ssl_writev` has written is exactly the first `n` gathered bytes, in order, if it returns `n > 0`,
and nothing if it returns zero or less; with the BIO wrapper at most 64 KB are taken. -/
theorem ssl_writev_prefix (bio early : Bool) (bufs : List Buf) (rs : List Int) (hs : ∀ v ∈ bufs, v.length < 2 ^ 31) :
    let y := sslWritev bio early bufs rs
    y.2 = (bytes bufs).take y.1.toNat ∧ y.1 ≤ (bytes bufs).length ∧ (bio = true → y.1 ≤ 65536) := by
  obtain ⟨k, h1, h2, h3, h4, h5⟩ := sslWritevFrom_spec bio early bufs rs 0 hs (by omega) (by omega)
  dsimp only
  unfold sslWritev
  by_cases hk : k = 0
  · subst hk
    have := h5 (by omega)
    refine ⟨?_, by omega, by omega⟩
    rw [h1]; congr 1; omega
  · have e := h4 (by omega)
    refine ⟨?_, by omega, fun h => by have := h3 h; omega⟩
    rw [h1]; congr 1; omega

theorem sslWrite1_go (bio early : Bool) (r : Int) (rs : List Int) (hot : Buf) (len got : Int) (hl : 0 < len) (hb : bio = true → got < 65536) :
    sslWrite1 bio early (r :: rs) hot len got =
      (let len := if bio then min (65536 - got) len else len
        let n := granted r len
        if early then
          if n > 0 then
            let x := sslWrite1 bio early rs (hot.drop n.toNat) (len - n) (got + n)
            { x with wire := hot.take n.toNat ++ x.wire }
          else ⟨some (gotOr got (-1)), got, rs, []⟩
        else if n ≠ len then ⟨some (if n > 0 then got + n else gotOr got n), got, rs, hot.take n.toNat⟩
        else ⟨none, got + n, rs, hot.take n.toNat⟩) := by
  conv => lhs; unfold sslWrite1
  rw [if_pos hl, if_neg (fun h => by have := hb h.1; omega)]

theorem sslWrite1_skip (bio early : Bool) (rs : List Int) (hot : Buf) (len got : Int) (hl : len ≤ 0) :
    sslWrite1 bio early rs hot len got = ⟨none, got, rs, []⟩ := by
  cases rs <;> (unfold sslWrite1; rw [if_neg (by omega)])

theorem sslWrite1_stop (bio early : Bool) (hot : Buf) (len got : Int) (hl : 0 < len) (hb : bio = true → got < 65536) :
    sslWrite1 bio early [] hot len got = ⟨some (gotOr got (-1)), got, [], []⟩ := by
  unfold sslWrite1
  rw [if_pos hl, if_neg (fun h => by have := hb h.1; omega)]

theorem take_ne_nil {v : Buf} {n : Nat} (hv : 0 < v.length) (hn : 0 < n) : v.take n ≠ [] := by
  intro h
  have := congrArg List.length h
  rw [List.length_take, List.length_nil] at this
  omega

/-- the first call for a non-empty buffer -/
theorem sslWrite1_first (bio early : Bool) (rs : List Int) (hot : Buf) (len got : Int) (hl : 0 < len) (hh : len = hot.length) (hb : got = 0) :
    (rs.headD (-1) ≤ 0 → (sslWrite1 bio early rs hot len got).ret = some (if early then -1 else rs.headD (-1))) ∧
    (0 < rs.headD (-1) → (sslWrite1 bio early rs hot len got).wire ≠ []) := by
  have hb' : bio = true → got < 65536 := fun _ => by omega
  have hv : 0 < hot.length := by omega
  have hgo : ∀ x, gotOr got x = x := fun x => by unfold gotOr; rw [if_neg (by omega)]
  cases rs with
  | nil =>
    rw [sslWrite1_stop bio early hot len got hl hb']
    simp [hgo]
  | cons r rs =>
    rw [sslWrite1_go bio early r rs hot len got hl hb']
    generalize hlen : (if bio = true then min (65536 - got) len else len) = len'
    have hl' : 0 < len' := by rw [← hlen]; split <;> omega
    simp only [List.headD_cons]
    constructor
    · intro hr
      have hgr : granted r len' = r := by unfold granted; omega
      rw [hgr, hgo, hgo]
      split
      · rw [if_neg (by omega)]
      · rw [if_pos (by omega), if_neg (by omega)]
    · intro hr
      have hgr : 0 < (granted r len').toNat := by unfold granted; omega
      have htk := take_ne_nil hv hgr
      split
      · rw [if_pos (by omega)]
        intro h
        exact htk (List.append_eq_nil_iff.1 h).1
      · split <;> exact htk

theorem sslWritevFrom_first (bio early : Bool) (bufs : List Buf) (rs : List Int) (got : Int) (hs : ∀ v ∈ bufs, v.length < 2 ^ 31) (ht : bytes bufs ≠ [])
    (hb : got = 0) :
    (rs.headD (-1) ≤ 0 → (sslWritevFrom bio early bufs rs got).1 = if early then -1 else rs.headD (-1)) ∧
    (0 < rs.headD (-1) → 0 < (sslWritevFrom bio early bufs rs got).1) := by
  induction bufs with
  | nil => exact absurd rfl ht
  | cons v vs ih =>
    have hv := hs v (by simp)
    by_cases hv0 : v.length = 0
    · have e : sslWrite1 bio early rs v (toInt32 v.length) got = ⟨none, got, rs, []⟩ := by
        rw [toInt32_small hv]
        cases rs <;> (unfold sslWrite1; rw [if_neg (by omega)])
      unfold sslWritevFrom
      rw [e]
      refine ih (fun w hw => hs w (by simp [hw])) ?_
      have : v = [] := List.eq_nil_of_length_eq_zero hv0
      subst this
      exact ht
    · obtain ⟨f1, f2⟩ := sslWrite1_first bio early rs v v.length got (by omega) rfl hb
      constructor
      · intro hr
        unfold sslWritevFrom
        rw [toInt32_small hv]
        dsimp only
        rw [f1 hr]
      · intro hr
        obtain ⟨k, h1, h2, h3, h4, h5⟩ := sslWritevFrom_spec bio early (v :: vs) rs got hs (by omega) (by omega)
        have hw1 := f2 hr
        have hw : (sslWritevFrom bio early (v :: vs) rs got).2 ≠ [] := by
          unfold sslWritevFrom
          rw [toInt32_small hv]
          dsimp only
          split
          · exact hw1
          · intro h; exact hw1 (List.append_eq_nil_iff.1 h).1
        have hk : k ≠ 0 := by
          intro hk
          rw [hk] at h1
          exact hw (h1.trans List.take_zero)
        rw [h4 (by omega)]
        omega

/-- **C35.** `kgl_ssl_writev` fails exactly if the first call does (there is something to write), with its result (-1 in early data). -/
theorem ssl_writev_error (bio early : Bool) (bufs : List Buf) (rs : List Int) (hs : ∀ v ∈ bufs, v.length < 2 ^ 31) (ht : bytes bufs ≠ []) :
    ((sslWritev bio early bufs rs).1 ≤ 0 ↔ rs.headD (-1) ≤ 0) ∧
    (rs.headD (-1) ≤ 0 → (sslWritev bio early bufs rs).1 = if early then -1 else rs.headD (-1)) := by
  obtain ⟨h1, h2⟩ := sslWritevFrom_first bio early bufs rs 0 hs ht rfl
  refine ⟨⟨fun h => ?_, fun h => ?_⟩, h1⟩
  · refine Decidable.byContradiction fun hn => ?_
    have := h2 (by omega)
    unfold sslWritev at h; omega
  · have := h1 h
    unfold sslWritev
    rw [this]; split <;> omega

/-- a call that takes everything it is offered -/
theorem sslWrite1_all (bio early : Bool) (r : Int) (rs : List Int) (v : Buf) (got : Int) (hv : 0 < v.length) (hr : (v.length : Int) ≤ r) (hg : 0 ≤ got)
    (hb : bio = true → got < 65536) :
    ∃ len', (sslWrite1 bio early (r :: rs) v v.length got).ret = none ∧ (sslWrite1 bio early (r :: rs) v v.length got).got = got + len' ∧
      (sslWrite1 bio early (r :: rs) v v.length got).rs = rs ∧ (len' = v.length ∨ (bio = true ∧ got + len' = 65536 ∧ len' ≤ v.length)) ∧
      (bio = true → got + len' ≤ 65536) ∧ 0 ≤ len' := by
  generalize hlen : (if bio = true then min (65536 - got) (v.length : Int) else (v.length : Int)) = len'
  have hl1 : 0 < len' := by
    rw [← hlen]; split
    · rename_i h; have := hb h; omega
    · omega
  have hl2 : len' ≤ v.length := by rw [← hlen]; split <;> omega
  have hgr : granted r len' = len' := by unfold granted; omega
  have hcase : len' = v.length ∨ (bio = true ∧ got + len' = 65536 ∧ len' ≤ v.length) := by
    rw [← hlen]
    by_cases h : bio = true
    · rw [if_pos h]
      by_cases h2 : (v.length : Int) ≤ 65536 - got
      · left; omega
      · right; exact ⟨h, by omega, by omega⟩
    · rw [if_neg h]; exact .inl rfl
  have hle : bio = true → got + len' ≤ 65536 := fun h => by rw [← hlen, if_pos h]; omega
  have e : ∀ hot, sslWrite1 bio early rs hot (len' - len') (got + len') = ⟨none, got + len', rs, []⟩ := by
    intro hot
    cases rs <;> (unfold sslWrite1; rw [if_neg (by omega)])
  have key : (sslWrite1 bio early (r :: rs) v v.length got).ret = none ∧ (sslWrite1 bio early (r :: rs) v v.length got).got = got + len' ∧
      (sslWrite1 bio early (r :: rs) v v.length got).rs = rs := by
    rw [sslWrite1_go bio early r rs v v.length got (by omega) hb, hlen]
    dsimp only
    rw [hgr]
    split
    · dsimp only
      rw [e]
      exact ⟨rfl, rfl, rfl⟩
    · rw [if_neg (fun h => h rfl)]
      exact ⟨rfl, rfl, rfl⟩
  exact ⟨len', key.1, key.2.1, key.2.2, hcase, hle, by omega⟩

theorem sslWritevFrom_step {bio early : Bool} {v : Buf} {vs : List Buf} {rs rs' : List Int} {got g : Int} {w : List Byte}
    (h : sslWrite1 bio early rs v (toInt32 v.length) got = ⟨none, g, rs', w⟩) :
    sslWritevFrom bio early (v :: vs) rs got = ((sslWritevFrom bio early vs rs' g).1, w ++ (sslWritevFrom bio early vs rs' g).2) := by
  conv => lhs; unfold sslWritevFrom
  simp only [h]

theorem sslWritevFrom_next (bio early : Bool) (v : Buf) (vs : List Buf) (rs : List Int) (got : Int) (hv : v.length < 2 ^ 31)
    (h : (sslWrite1 bio early rs v v.length got).ret = none) :
    (sslWritevFrom bio early (v :: vs) rs got).1 =
      (sslWritevFrom bio early vs (sslWrite1 bio early rs v v.length got).rs (sslWrite1 bio early rs v v.length got).got).1 := by
  have e : toInt32 v.length = v.length := toInt32_small hv
  conv => lhs; unfold sslWritevFrom
  simp only [e, h]

theorem sslWritevFrom_all (bio early : Bool) (bufs : List Buf) (rs : List Int) (got : Int) (hs : ∀ v ∈ bufs, v.length < 2 ^ 31) (hg : 0 ≤ got)
    (hb : bio = true → got ≤ 65536) (hr : ∀ r ∈ rs, ∀ v ∈ bufs, (v.length : Int) ≤ r) (hn : bufs.length ≤ rs.length) :
    (sslWritevFrom bio early bufs rs got).1 = if bio then min 65536 (got + (bytes bufs).length) else got + (bytes bufs).length := by
  induction bufs generalizing rs got with
  | nil =>
    simp only [sslWritevFrom, bytes, List.flatten_nil, List.length_nil]
    split
    · rename_i h; have := hb h; omega
    · omega
  | cons v vs ih =>
    have hv := hs v (by simp)
    have hbl : ((bytes (v :: vs)).length : Int) = v.length + (bytes vs).length := by simp [bytes]
    cases rs with
    | nil => simp at hn
    | cons r rs =>
      have hr0 := hr r (by simp) v (by simp)
      rw [List.length_cons, List.length_cons] at hn
      by_cases hfull : bio = true ∧ 65536 ≤ got
      · obtain ⟨e1, e2⟩ := hfull
        have e3 := hb e1
        have e4 : got = 65536 := Int.le_antisymm e3 e2
        have e5 : (0 : Int) ≤ (bytes (v :: vs)).length := Int.natCast_nonneg _
        subst e1
        rw [sslWritevFrom_full _ _ _ e2, if_pos rfl]
        clear hb ih hs hr hn hr0 hv hbl
        dsimp only
        omega
      · have hb2 : bio = true → got < 65536 := fun h => by
          exact Int.not_le.1 (fun h2 => hfull ⟨h, h2⟩)
        clear hfull
        by_cases hl : 0 < v.length
        · obtain ⟨len', k1, k2, k3, k4, k5, k6⟩ := sslWrite1_all bio early r rs v got hl hr0 hg hb2
          refine (sslWritevFrom_next bio early v vs (r :: rs) got hv k1).trans ?_
          rw [k2, k3]
          refine (ih rs (got + len') (fun w hw => hs w (List.mem_cons_of_mem _ hw)) (Int.add_nonneg hg k6) k5
            (fun x hx w hw => hr x (List.mem_cons_of_mem _ hx) w (List.mem_cons_of_mem _ hw)) (Nat.le_of_succ_le_succ hn)).trans ?_
          clear ih hs hr hb hb2 k1 k2 k3 k5 hn hr0
          rw [hbl]
          clear hbl
          generalize (bytes vs).length = B
          rcases k4 with k4 | ⟨k4, k4', k4''⟩
          · subst k4; split <;> omega
          · subst k4
            simp only [if_true]
            omega
        · have hl0 : (v.length : Int) = 0 := congrArg Nat.cast (Nat.eq_zero_of_not_pos hl)
          have e := sslWrite1_skip bio early (r :: rs) v v.length got (Int.le_of_eq hl0)
          refine (sslWritevFrom_next bio early v vs (r :: rs) got hv (by rw [e])).trans ?_
          rw [e, hbl, hl0, Int.zero_add]
          exact ih (r :: rs) got (fun w hw => hs w (List.mem_cons_of_mem _ hw)) hg hb
            (fun x hx w hw => hr x hx w (List.mem_cons_of_mem _ hw)) (Nat.le_of_succ_le hn)

/-- **C35.** If OpenSSL takes everything it is offered, everything is written (up to 64 KB with the BIO wrapper). -/
theorem ssl_writev_complete (bio early : Bool) (bufs : List Buf) (rs : List Int) (hs : ∀ v ∈ bufs, v.length < 2 ^ 31)
    (hr : ∀ r ∈ rs, ∀ v ∈ bufs, (v.length : Int) ≤ r) (hn : bufs.length ≤ rs.length) :
    (sslWritev bio early bufs rs).1 = if bio then min 65536 ((bytes bufs).length : Int) else (bytes bufs).length := by
  unfold sslWritev
  rw [sslWritevFrom_all bio early bufs rs 0 hs (by omega) (by omega) hr hn]
  split <;> omega

/-- the fallback `kgl_writev` -/
theorem kglWritevFrom_spec (bufs : List Buf) (rs : List Int) (got : Int) (hs : ∀ v ∈ bufs, v.length < 2 ^ 31) (hg : 0 ≤ got) :
    ∃ k : Nat, (kglWritevFrom bufs rs got).2 = (bytes bufs).take k ∧ k ≤ (bytes bufs).length ∧
      (0 < got + k → (kglWritevFrom bufs rs got).1 = got + k) ∧ (got + k = 0 → (kglWritevFrom bufs rs got).1 ≤ 0) := by
  induction bufs generalizing rs got with
  | nil => exact ⟨0, by simp [kglWritevFrom], by omega, by simp [kglWritevFrom], fun h => by simp [kglWritevFrom]; omega⟩
  | cons v vs ih =>
    unfold kglWritevFrom
    rw [toInt32_small (hs v (by simp))]
    have hbl : (bytes (v :: vs)).length = v.length + (bytes vs).length := by simp [bytes]
    dsimp only
    generalize hn : granted (rs.headD (-1)) (v.length : Int) = n
    have hnv : n ≤ v.length := by simp only [granted] at hn; omega
    split
    · rename_i hne
      refine ⟨n.toNat, ?_, by omega, ?_, ?_⟩
      · simp only [bytes, List.flatten_cons]
        rw [List.take_append_of_le_length (by omega)]
      · simp only [gotOr]; grind
      · simp only [gotOr]; grind
    · rename_i heq
      have hn : n = v.length := Decidable.not_not.1 heq
      rw [hn]
      obtain ⟨m, g1, g2, g3, g4⟩ := ih rs.tail (got + v.length) (fun w hw => hs w (by simp [hw])) (by omega)
      refine ⟨v.length + m, ?_, by omega, fun h => ?_, fun h => g4 (by omega)⟩
      · dsimp only
        rw [g1]
        simp only [bytes, List.flatten_cons, Int.toNat_natCast]
        rw [List.take_length, List.take_length_add_append]
      · dsimp only
        rw [g3 (by omega)]; omega

/-- **C35.** The fallback `kgl_writev` has the same property. -/
theorem kgl_writev_prefix (bufs : List Buf) (rs : List Int) (hs : ∀ v ∈ bufs, v.length < 2 ^ 31) :
    let y := kglWritev bufs rs
    y.2 = (bytes bufs).take y.1.toNat ∧ y.1 ≤ (bytes bufs).length := by
  obtain ⟨k, h1, h2, h3, h4⟩ := kglWritevFrom_spec bufs rs 0 hs (by omega)
  dsimp only
  unfold kglWritev
  by_cases hk : k = 0
  · subst hk
    have := h4 (by omega)
    refine ⟨?_, by omega⟩
    rw [h1]; congr 1; omega
  · have e := h3 (by omega)
    refine ⟨?_, by omega⟩
    rw [h1]; congr 1; omega

/-! ## Reading -/

/-- everything the peer has sent that has not been read: the byte stored ahead, then the rest -/
def avail (σ : RS) : List Byte := σ.pre.toList ++ σ.inc

theorem sslReadPlain_spec (σ : RS) (hot : Buf) (len got : Int) (hl : len = hot.length) (hg : 0 ≤ got) :
    ∃ k : Nat, (sslReadPlain σ hot len got).mem = σ.inc.take k ++ hot.drop k ∧ k ≤ σ.inc.length ∧ (k : Int) ≤ len ∧
      (sslReadPlain σ hot len got).σ.inc = σ.inc.drop k ∧ (sslReadPlain σ hot len got).σ.pre = σ.pre ∧
      ((sslReadPlain σ hot len got).ret = none → (sslReadPlain σ hot len got).got = got + k ∧ (k : Int) = len) ∧
      (∀ n, (sslReadPlain σ hot len got).ret = some n → (0 < got + k → n = got + k) ∧ (got + k = 0 → n ≤ 0)) := by
  refine ⟨(granted (σ.rs.headD (-1)) (min len σ.inc.length)).toNat, ?_, ?_, ?_, ?_, ?_, ?_, ?_⟩
  · unfold sslReadPlain; dsimp only; split <;> rfl
  · simp only [granted]; omega
  · simp only [granted]; omega
  · unfold sslReadPlain; dsimp only; split <;> rfl
  · unfold sslReadPlain; dsimp only; split <;> rfl
  · unfold sslReadPlain
    dsimp only
    split
    · intro h; cases h
    · rename_i h; intro _; dsimp only; simp only [granted] at *; omega
  · unfold sslReadPlain
    dsimp only
    split
    · intro n hn; simp at hn; subst hn; simp only [gotOr, granted]; grind
    · intro n hn; cases hn

theorem sslReadE_spec (σ : RS) (ers : List ERes) (hot : Buf) (len got : Int) (hl : len = hot.length) (hg : 0 ≤ got) :
    ∃ k : Nat, (sslReadE σ ers hot len got).mem = σ.inc.take k ++ hot.drop k ∧ k ≤ σ.inc.length ∧ (k : Int) ≤ len ∧
      (sslReadE σ ers hot len got).σ.inc = σ.inc.drop k ∧ (sslReadE σ ers hot len got).σ.pre = σ.pre ∧
      ((sslReadE σ ers hot len got).ret = none → (sslReadE σ ers hot len got).got = got + k ∧ (k : Int) = len) ∧
      (∀ n, (sslReadE σ ers hot len got).ret = some n → (0 < got + k → n = got + k) ∧ (got + k = 0 → n ≤ 0)) := by
  induction ers generalizing σ hot len got with
  | nil =>
    unfold sslReadE
    split
    · split
      · refine ⟨0, by simp, by omega, by omega, by simp, rfl, by simp, ?_⟩
        intro n hn; simp at hn; subst hn; constructor <;> intros <;> omega
      · exact sslReadPlain_spec { σ with ers := [] } hot len got hl hg
    · refine ⟨0, by simp, by omega, by omega, by simp, rfl, ?_, by simp⟩
      intro _; dsimp only; omega
  | cons e ers ih =>
    unfold sslReadE
    split
    · split
      · cases e with
        | finish => exact sslReadPlain_spec { σ with ers := ers, early := false } hot len got hl hg
        | err =>
          refine ⟨0, by simp, by omega, by omega, by simp, rfl, by simp, ?_⟩
          intro n hn; simp at hn; subst hn; constructor <;> intros <;> omega
        | data r =>
          dsimp only
          generalize hn : max 0 (granted r (min len (σ.inc.length : Int))) = n
          have hn0 : 0 ≤ n := by omega
          have hn1 : n ≤ len ∧ n ≤ σ.inc.length := by simp only [granted] at hn; omega
          obtain ⟨k, h1, h2, h3, h4, h5, h6, h7⟩ := ih { σ with inc := σ.inc.drop n.toNat } (hot.drop n.toNat) (len - n) (got + n) (by simp; omega) (by omega)
          dsimp only at h1 h2 h3 h4 h5 h6 h7
          simp only [List.length_drop] at h2
          refine ⟨n.toNat + k, ?_, by omega, by omega, ?_, h5, ?_, ?_⟩
          · rw [h1, List.take_add, List.drop_drop, List.append_assoc]
          · rw [h4, List.drop_drop]
          · intro hr
            obtain ⟨e1, e2⟩ := h6 hr
            exact ⟨by rw [e1]; omega, by omega⟩
          · intro m hm
            obtain ⟨e1, e2⟩ := h7 m hm
            exact ⟨fun h => by rw [e1 (by omega)]; omega, fun h => e2 (by omega)⟩
      · exact sslReadPlain_spec { σ with ers := e :: ers } hot len got hl hg
    · refine ⟨0, by simp, by omega, by omega, by simp, rfl, ?_, by simp⟩
      intro _; dsimp only; omega

theorem sslRead1_spec (σ : RS) (hot : Buf) (got : Int) (hg : 0 ≤ got) :
    ∃ k : Nat, (sslRead1 σ hot hot.length got).mem = (avail σ).take k ++ hot.drop k ∧ k ≤ (avail σ).length ∧ k ≤ hot.length ∧
      avail (sslRead1 σ hot hot.length got).σ = (avail σ).drop k ∧
      ((sslRead1 σ hot hot.length got).ret = none → (sslRead1 σ hot hot.length got).got = got + k ∧ k = hot.length) ∧
      (∀ n, (sslRead1 σ hot hot.length got).ret = some n → (0 < got + k → n = got + k) ∧ (got + k = 0 → n ≤ 0)) := by
  unfold sslRead1
  split
  · rename_i b hb
    have ha : avail σ = b :: σ.inc := by simp [avail, hb]
    split
    · rename_i hpos
      obtain ⟨k, h1, h2, h3, h4, h5, h6, h7⟩ := sslReadE_spec { σ with pre := none } σ.ers (hot.drop 1) (hot.length - 1) (got + 1) (by simp; omega) (by omega)
      dsimp only at h1 h2 h3 h4 h5 h6 h7 ⊢
      refine ⟨k + 1, ?_, by rw [ha]; simp; omega, by omega, ?_, ?_, ?_⟩
      · rw [h1, ha, List.take_succ_cons, List.drop_drop]
        simp [Nat.add_comm]
      · rw [ha]; simp only [avail, h4, h5]; simp
      · intro hr
        obtain ⟨e1, e2⟩ := h6 hr
        exact ⟨by rw [e1]; omega, by omega⟩
      · intro m hm
        obtain ⟨e1, e2⟩ := h7 m hm
        exact ⟨fun h => by rw [e1 (by omega)]; omega, fun h => by omega⟩
    · refine ⟨0, by simp, by omega, by omega, by simp, ?_, by simp⟩
      intro _; dsimp only; omega
  · rename_i hb
    have ha : avail σ = σ.inc := by simp [avail, hb]
    obtain ⟨k, h1, h2, h3, h4, h5, h6, h7⟩ := sslReadE_spec σ σ.ers hot hot.length got rfl hg
    refine ⟨k, by rw [ha]; exact h1, by rw [ha]; exact h2, by omega, ?_, fun h => ?_, h7⟩
    · rw [ha]; simp only [avail, h4, h5, hb]; simp
    · obtain ⟨e1, e2⟩ := h6 h
      exact ⟨e1, by omega⟩

theorem sslReadvFrom_spec (bufs : List Buf) (σ : RS) (got : Int) (hs : ∀ v ∈ bufs, v.length < 2 ^ 31) (hg : 0 ≤ got) :
    ∃ k : Nat, bytes (sslReadvFrom bufs σ got).2.2 = (avail σ).take k ++ (bytes bufs).drop k ∧
      (sslReadvFrom bufs σ got).2.2.map List.length = bufs.map List.length ∧ k ≤ (avail σ).length ∧ k ≤ (bytes bufs).length ∧
      avail (sslReadvFrom bufs σ got).2.1 = (avail σ).drop k ∧
      (0 < got + k → (sslReadvFrom bufs σ got).1 = got + k) ∧ (got + k = 0 → (sslReadvFrom bufs σ got).1 ≤ 0) := by
  induction bufs generalizing σ got with
  | nil => exact ⟨0, by simp [sslReadvFrom, bytes], by simp [sslReadvFrom], by omega, by omega, by simp [sslReadvFrom], by simp [sslReadvFrom], fun h => by simp [sslReadvFrom]; omega⟩
  | cons v vs ih =>
    unfold sslReadvFrom
    rw [toInt32_small (hs v (by simp))]
    have hbl : (bytes (v :: vs)).length = v.length + (bytes vs).length := by simp [bytes]
    obtain ⟨k, h1, h2, h3, h4, h5, h6⟩ := sslRead1_spec σ v got hg
    have hml : (sslRead1 σ v v.length got).mem.length = v.length := by rw [h1]; simp; omega
    dsimp only
    split
    · rename_i n hn
      obtain ⟨e1, e2⟩ := h6 n hn
      refine ⟨k, ?_, by simp [hml], h2, by omega, h4, e1, e2⟩
      simp only [bytes, List.flatten_cons]
      rw [h1, List.drop_append_of_le_length h3, List.append_assoc]
    · rename_i hn
      obtain ⟨e1, e2⟩ := h5 hn
      rw [e1]
      obtain ⟨m, g1, g2, g3, g4, g5, g6, g7⟩ := ih (sslRead1 σ v v.length got).σ (got + k) (fun w hw => hs w (by simp [hw])) (by omega)
      rw [h4] at g1 g3 g5
      simp only [List.length_drop] at g3
      refine ⟨k + m, ?_, by simp [hml, g2], by omega, by omega, by rw [g5, List.drop_drop], fun h => by rw [g6 (by omega)]; omega, fun h => g7 (by omega)⟩
      simp only [bytes, List.flatten_cons] at g1 ⊢
      rw [h1, g1, e2, List.drop_eq_nil_of_le (Nat.le_refl _), List.append_nil, List.take_add, List.append_assoc, List.drop_append]
      simp

/-- **C35.** Whatever OpenSSL answers, if `kgl_ssl_readv` returns `n > 0` the first `n` bytes of the scattered buffers hold exactly the next `n` bytes the peer
sent (the byte stored ahead first) and these are consumed; if it returns zero or less nothing is read.  The rest of the buffers keep
their contents. -/
theorem ssl_readv_prefix (bufs : List Buf) (σ : RS) (hs : ∀ v ∈ bufs, v.length < 2 ^ 31) :
    let y := sslReadv bufs σ
    bytes y.2.2 = (avail σ).take y.1.toNat ++ (bytes bufs).drop y.1.toNat ∧ y.2.2.map List.length = bufs.map List.length ∧
      avail y.2.1 = (avail σ).drop y.1.toNat ∧ y.1 ≤ (bytes bufs).length ∧ y.1 ≤ (avail σ).length := by
  obtain ⟨k, h1, h2, h3, h4, h5, h6, h7⟩ := sslReadvFrom_spec bufs σ 0 hs (by omega)
  dsimp only
  unfold sslReadv
  have e : (sslReadvFrom bufs σ 0).1.toNat = k := by
    by_cases hk : k = 0
    · have := h7 (by omega); omega
    · have := h6 (by omega); omega
  have hle : (sslReadvFrom bufs σ 0).1 ≤ k := by omega
  rw [e]
  exact ⟨h1, h2, h5, by omega, by omega⟩

/-- the fallback `kgl_readv` -/
theorem kglReadvFrom_spec (bufs : List Buf) (rs : List Int) (inc : List Byte) (got : Int) (hs : ∀ v ∈ bufs, v.length < 2 ^ 31) (hg : 0 ≤ got) :
    ∃ k : Nat, bytes (kglReadvFrom bufs rs inc got).2.2 = inc.take k ++ (bytes bufs).drop k ∧ k ≤ inc.length ∧ k ≤ (bytes bufs).length ∧
      (kglReadvFrom bufs rs inc got).2.1 = inc.drop k ∧
      (0 < got + k → (kglReadvFrom bufs rs inc got).1 = got + k) ∧ (got + k = 0 → (kglReadvFrom bufs rs inc got).1 ≤ 0) := by
  induction bufs generalizing rs inc got with
  | nil => exact ⟨0, by simp [kglReadvFrom, bytes], by omega, by omega, by simp [kglReadvFrom], by simp [kglReadvFrom], fun h => by simp [kglReadvFrom]; omega⟩
  | cons v vs ih =>
    unfold kglReadvFrom
    rw [toInt32_small (hs v (by simp))]
    have hbl : (bytes (v :: vs)).length = v.length + (bytes vs).length := by simp [bytes]
    dsimp only
    generalize hn : granted (rs.headD (-1)) (min (v.length : Int) inc.length) = n
    have hnv : n ≤ v.length ∧ n ≤ inc.length := by simp only [granted] at hn; omega
    split
    · rename_i hne
      refine ⟨n.toNat, ?_, by omega, by omega, rfl, ?_, ?_⟩
      · simp only [bytes, List.flatten_cons]
        rw [List.drop_append_of_le_length (by omega), List.append_assoc]
      · simp only [gotOr]; grind
      · simp only [gotOr]; grind
    · rename_i heq
      have hn : n = v.length := Decidable.not_not.1 heq
      have hvi : v.length ≤ inc.length := by omega
      rw [hn, Int.toNat_natCast]
      obtain ⟨m, g1, g2, g3, g4, g5, g6⟩ := ih rs.tail (inc.drop v.length) (got + v.length) (fun w hw => hs w (by simp [hw])) (by omega)
      simp only [List.length_drop] at g2
      refine ⟨v.length + m, ?_, by omega, by omega, ?_, fun h => ?_, fun h => g6 (by omega)⟩
      · simp only [bytes, List.flatten_cons] at g1 ⊢
        rw [g1, List.drop_eq_nil_of_le (Nat.le_refl _), List.append_nil, List.take_add, List.append_assoc, List.drop_append]
        simp
      · dsimp only; rw [g4, List.drop_drop]
      · dsimp only; rw [g5 (by omega)]; omega

/-- **C35.** The fallback `kgl_readv` has the same property. -/
theorem kgl_readv_prefix (bufs : List Buf) (rs : List Int) (inc : List Byte) (hs : ∀ v ∈ bufs, v.length < 2 ^ 31) :
    let y := kglReadv bufs rs inc
    bytes y.2.2 = inc.take y.1.toNat ++ (bytes bufs).drop y.1.toNat ∧ y.2.1 = inc.drop y.1.toNat ∧ y.1 ≤ (bytes bufs).length := by
  obtain ⟨k, h1, h2, h3, h4, h5, h6⟩ := kglReadvFrom_spec bufs rs inc 0 hs (by omega)
  dsimp only
  unfold kglReadv
  have e : (kglReadvFrom bufs rs inc 0).1.toNat = k := by
    by_cases hk : k = 0
    · have := h6 (by omega); omega
    · have := h5 (by omega); omega
  rw [e]
  exact ⟨h1, h4, by omega⟩

/-! ## Non-vacuity and findings -/

example : sslWritev false false [[1, 2], [], [3, 4, 5], [6]] [9, 2, 9] = (4, [1, 2, 3, 4]) := by decide
example : sslWritev true true [[1, 2], [3, 4, 5], [6]] [1, 1, 9, -1] = (5, [1, 2, 3, 4, 5]) := by decide
example : sslWritev false false [[], [1, 2]] [-1, 5] = (-1, []) := by decide
example : sslReadv [[0, 0], [0, 0, 0]] ⟨some 7, true, [.data 2, .finish], [1], [8, 9, 10, 11]⟩ =
    (3, ⟨none, false, [], [], [10, 11]⟩, [[7, 8], [9, 0, 0]]) := by decide

/-- **Finding (C35).** While TLS early data is read, a call that would have to wait (or fails) before any byte is read makes `kgl_ssl_readv` return 0, which the caller
takes for the end of the stream; without early data the same situation is reported as -1. -/
theorem ssl_readv_early_wait_is_eof : (sslReadv [[0, 0]] ⟨none, true, [.err], [], []⟩).1 = 0 ∧ (sslReadv [[0, 0]] ⟨none, false, [], [-1], []⟩).1 = -1 := by decide

/-- **Finding (C35).** The length of a buffer is converted to `int`: of a buffer of `2^32 + m` bytes only the first `m` are written before the next buffer follows,
so what is written is not a prefix. -/
theorem ssl_writev_huge_buffer (v : Buf) (h : (v.length : Int) = 2 ^ 32 + 1) (b : Byte) (r1 r2 : Int) (h1 : 1 ≤ r1) (h2 : 1 ≤ r2) :
    sslWritev false false [v, [b]] [r1, r2] = (2, v.take 1 ++ [b]) := by
  have e : toInt32 (v.length : Int) = 1 := by rw [h]; unfold toInt32; omega
  have e2 : toInt32 (([b] : Buf).length : Int) = 1 := by
    show toInt32 ((1 : Nat) : Int) = 1
    rw [toInt32_small (by omega)]; rfl
  have w : ∀ (r : Int) (rs : List Int) (hot : Buf) (g : Int), 1 ≤ r → sslWrite1 false false (r :: rs) hot 1 g = ⟨none, g + 1, rs, hot.take 1⟩ := by
    intro r rs hot g hr
    have hg : granted r 1 = 1 := by unfold granted; omega
    refine (sslWrite1_go false false r rs hot 1 g (by omega) (fun h => (by cases h))).trans ?_
    simp only [Bool.false_eq_true, if_false, hg, ne_eq, not_true]
    rfl
  have w1 : sslWrite1 false false [r1, r2] v (toInt32 v.length) 0 = ⟨none, 0 + 1, [r2], v.take 1⟩ := by rw [e]; exact w r1 _ v 0 h1
  have w2 : sslWrite1 false false [r2] [b] (toInt32 (([b] : Buf).length : Int)) (0 + 1) = ⟨none, 0 + 1 + 1, [], [b]⟩ := by rw [e2]; exact w r2 _ [b] _ h2
  exact (sslWritevFrom_step w1).trans (by rw [sslWritevFrom_step w2]; rfl)

end Kasync.NetIO
