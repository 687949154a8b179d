import Verif.Tls.Proto

/-!
# The TLS versions of a context are those listed (C50)
-/

namespace Kasync.Tls.Proto

/-! ## Specification, in terms of characters and texts only -/

/-- white space -/
def blank (c : UInt8) : Bool := [9, 10, 11, 12, 13, 32].contains c

/-- the names of the configuration -/
def title : Ver → String
  | .ssl2 => "SSLv2" | .ssl3 => "SSLv3" | .tls1 => "TLSv1" | .tls11 => "TLSv1.1" | .tls12 => "TLSv1.2" | .tls13 => "TLSv1.3"

/-- `w` is a word of `s`: a non-empty run of characters that are not white space, bounded by white space or the ends -/
def IsWord (s w : List UInt8) : Prop :=
  ∃ pre post, s = pre ++ w ++ post ∧ w ≠ [] ∧ (∀ c ∈ w, blank c = false) ∧
    (∀ c, pre.getLast? = some c → blank c = true) ∧ (∀ c, post.head? = some c → blank c = true)

/-- the version is named in `s`, in upper or lower case -/
def Named (s : List UInt8) (v : Ver) : Prop :=
  ∃ w, IsWord s w ∧ w.map (fun c => (Char.ofNat c.toNat).toLower) = (title v).toList.map Char.toLower

theorem blank_eq : blank = isSpace := by
  funext c
  have h : ∀ n : Fin 256, blank (UInt8.ofNat n) = isSpace (UInt8.ofNat n) := by decide +kernel
  have := h ⟨c.toNat, c.toNat_lt⟩
  simpa using this

theorem fold_eq (c : UInt8) : (Char.ofNat c.toNat).toLower = Char.ofNat (lower c).toNat := by
  have h : ∀ n : Fin 256, (Char.ofNat (UInt8.ofNat n).toNat).toLower = Char.ofNat (lower (UInt8.ofNat n)).toNat := by decide +kernel
  have := h ⟨c.toNat, c.toNat_lt⟩
  simpa using this

theorem ofNat_inj {a b : UInt8} (h : Char.ofNat a.toNat = Char.ofNat b.toNat) : a = b := by
  have k : ∀ n : Fin 256, (Char.ofNat n).toNat = n := by decide +kernel
  have ha := k ⟨a.toNat, a.toNat_lt⟩
  have hb := k ⟨b.toNat, b.toNat_lt⟩
  simp only at ha hb
  rw [h, hb] at ha
  exact UInt8.toNat_inj.1 ha.symm

theorem map_ofNat_inj {a b : List UInt8} (h : a.map (fun c => Char.ofNat c.toNat) = b.map (fun c => Char.ofNat c.toNat)) : a = b := by
  induction a generalizing b with
  | nil => cases b with
    | nil => rfl
    | cons => simp at h
  | cons x a ih => cases b with
    | nil => simp at h
    | cons y b =>
      simp only [List.map_cons, List.cons.injEq] at h
      rw [ofNat_inj h.1, ih h.2]

theorem named_iff (s : List UInt8) (v : Ver) : Named s v ↔ ∃ w, IsWord s w ∧ w.map lower = (name v).map lower := by
  have h : (title v).toList.map Char.toLower = ((name v).map lower).map (fun c => Char.ofNat c.toNat) := by
    cases v <;> decide +kernel
  unfold Named
  rw [h]
  have g : ∀ w : List UInt8, w.map (fun c => (Char.ofNat c.toNat).toLower) = (w.map lower).map (fun c => Char.ofNat c.toNat) := by
    intro w; rw [List.map_map]; apply List.map_congr_left; intro c _; exact fold_eq c
  constructor
  · rintro ⟨w, h1, h2⟩; rw [g] at h2; exact ⟨w, h1, map_ofNat_inj h2⟩
  · rintro ⟨w, h1, h2⟩; exact ⟨w, h1, by rw [g, h2]⟩

/-! ## Words -/

theorem not_isWord_nil (w : List UInt8) : ¬ IsWord [] w := by
  rintro ⟨pre, post, h, hw, _⟩
  have := congrArg List.length h
  cases w with
  | nil => exact hw rfl
  | cons => simp at this

theorem isWord_space {c : UInt8} {s w : List UInt8} (hc : isSpace c = true) : IsWord (c :: s) w ↔ IsWord s w := by
  unfold IsWord; rw [blank_eq]
  constructor
  · rintro ⟨pre, post, h, hw, h1, h2, h3⟩
    cases pre with
    | nil =>
      cases w with
      | nil => exact absurd rfl hw
      | cons d w =>
        simp only [List.nil_append, List.cons_append, List.cons.injEq] at h
        have := h1 d (by simp)
        rw [← h.1, hc] at this; cases this
    | cons d pre =>
      simp only [List.cons_append, List.cons.injEq] at h
      refine ⟨pre, post, h.2, hw, h1, ?_, h3⟩
      intro x hx
      apply h2 x
      cases pre with
      | nil => simp at hx
      | cons e pre => rw [List.getLast?_cons_cons]; exact hx
  · rintro ⟨pre, post, rfl, hw, h1, h2, h3⟩
    refine ⟨c :: pre, post, by simp, hw, h1, ?_, h3⟩
    intro x hx
    cases pre with
    | nil => simp at hx; rw [← hx]; exact hc
    | cons e pre => rw [List.getLast?_cons_cons] at hx; exact h2 x hx

theorem isWord_first {a r w : List UInt8} (ha : ∀ c ∈ a, isSpace c = false) (hne : a ≠ []) (hr : ∀ c, r.head? = some c → isSpace c = true) :
    IsWord (a ++ r) w ↔ w = a ∨ IsWord r w := by
  unfold IsWord; rw [blank_eq]
  constructor
  · rintro ⟨pre, post, h, hw, h1, h2, h3⟩
    rw [List.append_assoc] at h
    rcases List.append_eq_append_iff.1 h with ⟨x, hx, hy⟩ | ⟨x, hx, hy⟩
    · -- pre = a ++ x
      right
      refine ⟨x, post, by rw [hy, List.append_assoc], hw, h1, ?_, h3⟩
      intro c hc
      apply h2 c
      rw [hx]
      cases x with
      | nil => simp at hc
      | cons e x => rw [List.getLast?_append]; simp [hc]
    · -- a = pre ++ x, w ++ post = x ++ r
      cases hp : pre.getLast? with
      | some c =>
        have hm : c ∈ a := by rw [hx]; exact List.mem_append_left _ (List.mem_of_getLast? hp)
        have := ha c hm
        rw [h2 c hp] at this; cases this
      | none =>
        rw [List.getLast?_eq_none_iff] at hp
        subst hp
        simp only [List.nil_append] at hx
        subst hx
        rcases List.append_eq_append_iff.1 hy with ⟨y, e1, e2⟩ | ⟨y, e1, e2⟩
        · -- a = w ++ y, post = y ++ r
          cases y with
          | nil => left; simpa using e1.symm
          | cons d y =>
            have k1 := ha d (by rw [e1]; simp)
            have k2 := h3 d (by rw [e2]; rfl)
            rw [k1] at k2; cases k2
        · -- w = a ++ y, r = y ++ post
          cases y with
          | nil => left; simpa using e1
          | cons d y =>
            have k1 := h1 d (by rw [e1]; simp)
            have k2 := hr d (by rw [e2]; rfl)
            rw [k1] at k2; cases k2
  · rintro (rfl | ⟨pre, post, rfl, hw, h1, h2, h3⟩)
    · exact ⟨[], r, rfl, hne, ha, by simp, hr⟩
    · refine ⟨a ++ pre, post, by simp, hw, h1, ?_, h3⟩
      intro c hc
      cases pre with
      | nil =>
        -- the word would be at the start of r, which starts with a space
        cases w with
        | nil => exact absurd rfl hw
        | cons d w =>
          have k1 := h1 d (by simp)
          have k2 := hr d (by simp)
          rw [k1] at k2; cases k2
      | cons e pre => rw [List.getLast?_append] at hc; exact h2 c (by simpa using hc)

/-! ## The scanner -/

theorem skip_eq {p : List UInt8} {t r : List UInt8} (ht : ∀ c ∈ t, isSpace c = true ∧ c ≠ 0) (hr : ∃ c r', r = c :: r' ∧ (c = 0 ∨ isSpace c = false)) :
    skip (p ++ t ++ r) p.length = some (p.length + t.length) := by
  induction t generalizing p with
  | nil =>
    obtain ⟨c, r', rfl, hc⟩ := hr
    have hg : (p ++ [] ++ c :: r')[p.length]? = some c := by simp
    unfold skip
    split
    · rename_i h; rw [hg] at h; cases h
    · rename_i d h; rw [hg] at h; cases h
      rw [if_neg (by rcases hc with rfl | h <;> simp [*])]
      simp
  | cons x t ih =>
    have hg : (p ++ (x :: t) ++ r)[p.length]? = some x := by simp
    have hx := ht x (by simp)
    unfold skip
    split
    · rename_i h; rw [hg] at h; cases h
    · rename_i d h; rw [hg] at h; cases h
      rw [if_pos (by simp [hx])]
      have := ih (p := p ++ [x]) (fun c hc => ht c (by simp [hc]))
      simp only [List.length_append, List.length_singleton, List.append_assoc, List.singleton_append, List.cons_append, List.nil_append] at this ⊢
      rw [this]
      simp; omega

theorem word_eq {p : List UInt8} {t r : List UInt8} (ht : ∀ c ∈ t, isSpace c = false ∧ c ≠ 0) (hr : ∃ c r', r = c :: r' ∧ (c = 0 ∨ isSpace c = true)) :
    word (p ++ t ++ r) p.length = some (p.length + t.length) := by
  induction t generalizing p with
  | nil =>
    obtain ⟨c, r', rfl, hc⟩ := hr
    have hg : (p ++ [] ++ c :: r')[p.length]? = some c := by simp
    unfold word
    split
    · rename_i h; rw [hg] at h; cases h
    · rename_i d h; rw [hg] at h; cases h
      rw [if_neg (by rcases hc with rfl | h <;> simp [*])]
      simp
  | cons x t ih =>
    have hg : (p ++ (x :: t) ++ r)[p.length]? = some x := by simp
    have hx := ht x (by simp)
    unfold word
    split
    · rename_i h; rw [hg] at h; cases h
    · rename_i d h; rw [hg] at h; cases h
      rw [if_pos (by simp [hx])]
      have := ih (p := p ++ [x]) (fun c hc => ht c (by simp [hc]))
      simp only [List.length_append, List.length_singleton, List.append_assoc, List.singleton_append, List.cons_append, List.nil_append] at this ⊢
      rw [this]
      simp; omega

theorem cstr_eq {p : List UInt8} {t r : List UInt8} (ht : ∀ c ∈ t, c ≠ 0) : cstr (p ++ t ++ 0 :: r) p.length = some t := by
  induction t generalizing p with
  | nil =>
    have hg : (p ++ [] ++ 0 :: r)[p.length]? = some 0 := by simp
    unfold cstr
    split
    · rename_i h; rw [hg] at h; cases h
    · rename_i d h; rw [hg] at h; cases h
      rw [if_pos rfl]
  | cons x t ih =>
    have hg : (p ++ (x :: t) ++ 0 :: r)[p.length]? = some x := by simp
    have hx := ht x (by simp)
    unfold cstr
    split
    · rename_i h; rw [hg] at h; cases h
    · rename_i d h; rw [hg] at h; cases h
      rw [if_neg hx]
      have := ih (p := p ++ [x]) (fun c hc => ht c (by simp [hc]))
      simp only [List.length_append, List.length_singleton, List.append_assoc, List.singleton_append, List.cons_append, List.nil_append] at this ⊢
      rw [this]; rfl

theorem look_mem (w : List UInt8) (mask : List Ver) (v : Ver) : v ∈ look w mask ↔ v ∈ mask ∨ w.map lower = (name v).map lower := by
  have h : ∀ (tb : List (List UInt8 × Ver)) (m : List Ver), v ∈ tb.foldl (fun m e => if caseEq e.1 w then e.2 :: m else m) m ↔
      v ∈ m ∨ ∃ e ∈ tb, e.2 = v ∧ e.1.map lower = w.map lower := by
    intro tb
    induction tb with
    | nil => intro m; simp
    | cons e tb ih =>
      intro m
      rw [List.foldl_cons, ih]
      simp only [caseEq, decide_eq_true_eq]
      split <;> rename_i he <;> grind
  unfold look
  rw [h]
  apply or_congr Iff.rfl
  constructor
  · rintro ⟨e, hm, rfl, he⟩
    simp only [table, List.mem_cons, List.not_mem_nil, or_false] at hm
    rcases hm with rfl | rfl | rfl | rfl | rfl | rfl <;> exact he.symm
  · intro he
    refine ⟨(name v, v), ?_, rfl, he.symm⟩
    cases v <;> simp [table]

theorem loop_eq (t : List UInt8) : ∀ (p : List UInt8) (mask : List Ver), (∀ c ∈ t, c ≠ 0) →
    ∃ m, loop (p ++ t ++ [0]) p.length mask = some m ∧ ∀ v, v ∈ m ↔ v ∈ mask ∨ Named t v := by
  induction hn : t.length using Nat.strongRecOn generalizing t with
  | ind n ih =>
    intro p mask ht
    subst hn
    -- leading white space
    obtain ⟨a, ha⟩ : ∃ a, a = t.takeWhile isSpace := ⟨_, rfl⟩
    obtain ⟨b, hb⟩ : ∃ b, b = (t.dropWhile isSpace).takeWhile (fun c => !isSpace c) := ⟨_, rfl⟩
    obtain ⟨r, hr⟩ : ∃ r, r = (t.dropWhile isSpace).dropWhile (fun c => !isSpace c) := ⟨_, rfl⟩
    have e1 : t = a ++ (b ++ r) := by rw [ha, hb, hr, List.takeWhile_append_dropWhile, List.takeWhile_append_dropWhile]
    have ha' : ∀ c ∈ a, isSpace c = true ∧ c ≠ 0 := by
      intro c hc
      refine ⟨?_, ht c (by rw [e1]; simp [hc])⟩
      rw [ha] at hc; exact List.all_eq_true.1 (List.all_takeWhile) c hc
    have hb' : ∀ c ∈ b, isSpace c = false ∧ c ≠ 0 := by
      intro c hc
      refine ⟨?_, ht c (by rw [e1]; simp [hc])⟩
      rw [hb] at hc; simpa using List.all_eq_true.1 (List.all_takeWhile (p := fun c => !isSpace c)) c hc
    have hr' : ∀ c, r.head? = some c → isSpace c = true := by
      intro c hc
      rw [hr] at hc
      have := List.head?_dropWhile_not (fun c => !isSpace c) (t.dropWhile isSpace)
      rw [hc] at this
      simpa using this
    have hbr : ∀ c, (b ++ r).head? = some c → isSpace c = false := by
      intro c hc
      have := List.head?_dropWhile_not isSpace t
      have e2 : b ++ r = t.dropWhile isSpace := by rw [hb, hr, List.takeWhile_append_dropWhile]
      rw [← e2, hc] at this
      simpa using this
    have hskip : ∀ w, IsWord t w ↔ IsWord (b ++ r) w := by
      intro w
      rw [e1]
      clear e1 hb hr hb' hr' hbr ih
      generalize b ++ r = u
      clear ha
      induction a with
      | nil => rfl
      | cons c a iha => rw [List.cons_append, isWord_space (ha' c (by simp)).1]; exact iha (fun c hc => ha' c (by simp [hc]))
    have s1 : skip (p ++ t ++ [0]) p.length = some (p.length + a.length) := by
      rw [e1]
      have := skip_eq (p := p) (t := a) (r := b ++ r ++ [0]) ha' (by
        cases hx : b ++ r with
        | nil => exact ⟨0, [], rfl, .inl rfl⟩
        | cons c u => exact ⟨c, u ++ [0], rfl, .inr (hbr c (by rw [hx]; rfl))⟩)
      simpa using this
    have s2 : word (p ++ t ++ [0]) (p.length + a.length) = some (p.length + a.length + b.length) := by
      rw [e1]
      have := word_eq (p := p ++ a) (t := b) (r := r ++ [0]) hb' (by
        cases hx : r with
        | nil => exact ⟨0, [], rfl, .inl rfl⟩
        | cons c u => exact ⟨c, u ++ [0], rfl, .inr (hr' c (by rw [hx]; rfl))⟩)
      simpa using this
    unfold loop
    split
    · rename_i h; rw [s1] at h; cases h
    rename_i h h1
    rw [s1] at h1; cases h1
    split
    · rename_i h; rw [s2] at h; cases h
    rename_i q h2
    rw [s2] at h2; cases h2
    by_cases hbn : b = []
    · -- no word left
      subst hbn
      rw [if_pos (by simp)]
      refine ⟨mask, rfl, fun v => ?_⟩
      have hrn : r = [] := by
        cases hx : r with
        | nil => rfl
        | cons c u =>
          have k1 := hr' c (by rw [hx]; rfl)
          have k2 := hbr c (by rw [hx]; rfl)
          rw [k1] at k2; cases k2
      constructor
      · exact .inl
      · rintro (h | ⟨w, hw, _⟩)
        · exact h
        · rw [hskip, hrn] at hw; exact absurd hw (not_isWord_nil w)
    · have hbl : 0 < b.length := List.length_pos_iff.2 hbn
      rw [if_neg (by omega)]
      have hN : ∀ v, Named t v ↔ b.map lower = (name v).map lower ∨ Named r v := by
        intro v
        simp only [named_iff, hskip]
        constructor
        · rintro ⟨w, hw, hv⟩
          rcases (isWord_first (fun c hc => (hb' c hc).1) hbn hr').1 hw with rfl | hw
          · exact .inl hv
          · exact .inr ⟨w, hw, hv⟩
        · rintro (hv | ⟨w, hw, hv⟩)
          · exact ⟨b, (isWord_first (fun c hc => (hb' c hc).1) hbn hr').2 (.inl rfl), hv⟩
          · exact ⟨w, (isWord_first (fun c hc => (hb' c hc).1) hbn hr').2 (.inr hw), hv⟩
      cases hrc : r with
      | nil =>
        have e2 : p ++ t ++ [0] = p ++ a ++ b ++ 0 :: [] := by rw [e1, hrc]; simp
        have hg : (p ++ t ++ [0])[p.length + a.length + b.length]? = some 0 := by
          rw [e2, List.getElem?_append_right (by simp; omega)]
          have : p.length + a.length + b.length - (p ++ a ++ b).length = 0 := by simp; omega
          rw [this]; rfl
        have hc : cstr (p ++ t ++ [0]) (p.length + a.length) = some b := by
          rw [e2]
          have := cstr_eq (p := p ++ a) (t := b) (r := []) (fun c hc => (hb' c hc).2)
          simpa using this
        split
        · rename_i h; rw [hg] at h; cases h
        rename_i c h3
        rw [hg] at h3; cases h3
        simp only [ne_eq, not_true_eq_false, if_false, hc, hg, if_true]
        refine ⟨_, rfl, fun v => ?_⟩
        rw [look_mem, hN v, hrc]
        have : ¬ Named [] v := by rintro ⟨w, hw, _⟩; exact not_isWord_nil w hw
        simp [this]
      | cons c u =>
        have hcs := hr' c (by rw [hrc]; rfl)
        have hc0 : c ≠ 0 := ht c (by rw [e1, hrc]; simp)
        have e2 : p ++ t ++ [0] = p ++ a ++ b ++ c :: (u ++ [0]) := by rw [e1, hrc]; simp
        have hg : (p ++ t ++ [0])[p.length + a.length + b.length]? = some c := by
          rw [e2, List.getElem?_append_right (by simp; omega)]
          have : p.length + a.length + b.length - (p ++ a ++ b).length = 0 := by simp; omega
          rw [this]; rfl
        have e3 : (p ++ t ++ [0]).set (p.length + a.length + b.length) 0 = p ++ a ++ b ++ 0 :: (u ++ [0]) := by
          rw [e2, List.set_append_right _ _ (by simp; omega)]
          have : p.length + a.length + b.length - (p ++ a ++ b).length = 0 := by simp; omega
          rw [this]; rfl
        have hc : cstr ((p ++ t ++ [0]).set (p.length + a.length + b.length) 0) (p.length + a.length) = some b := by
          rw [e3]
          have := cstr_eq (p := p ++ a) (t := b) (r := u ++ [0]) (fun c hc => (hb' c hc).2)
          simpa using this
        rw [e3] at hc
        have hu : ∀ w, IsWord (c :: u) w ↔ IsWord u w := fun w => isWord_space hcs
        have hN' : ∀ v, Named t v ↔ b.map lower = (name v).map lower ∨ Named u v := by
          intro v; rw [hN v, hrc]; simp only [named_iff, hu]
        split
        · rename_i h; rw [hg] at h; cases h
        rename_i d h3
        rw [hg] at h3; cases h3
        simp only [ne_eq, hc0, not_false_eq_true, if_true, e3, hc]
        cases hul : u with
        | nil =>
          have hz : (p ++ a ++ b ++ 0 :: ([] ++ [0]))[p.length + a.length + b.length + 1]? = some 0 := by
            have e4 : p ++ a ++ b ++ 0 :: ([] ++ [0]) = (p ++ a ++ b ++ [0]) ++ [0] := by simp
            rw [e4, List.getElem?_append_right (by simp; omega)]
            have : p.length + a.length + b.length + 1 - (p ++ a ++ b ++ [0]).length = 0 := by simp; omega
            rw [this]; rfl
          rw [hz]
          simp only [if_true]
          refine ⟨_, rfl, fun v => ?_⟩
          rw [look_mem, hN' v, hul]
          have : ¬ Named [] v := by rintro ⟨w, hw, _⟩; exact not_isWord_nil w hw
          simp [this]
        | cons d u' =>
          have hd0 : d ≠ 0 := ht d (by rw [e1, hrc, hul]; simp)
          have hz : (p ++ a ++ b ++ 0 :: ((d :: u') ++ [0]))[p.length + a.length + b.length + 1]? = some d := by
            have e4 : p ++ a ++ b ++ 0 :: ((d :: u') ++ [0]) = (p ++ a ++ b ++ [0]) ++ d :: (u' ++ [0]) := by simp
            rw [e4, List.getElem?_append_right (by simp; omega)]
            have : p.length + a.length + b.length + 1 - (p ++ a ++ b ++ [0]).length = 0 := by simp; omega
            rw [this]; rfl
          rw [hz]
          simp only [hd0, if_false]
          have hlen : u.length < t.length := by rw [e1, hrc]; simp; omega
          obtain ⟨m, h1, h2⟩ := ih u.length hlen u rfl (p ++ a ++ b ++ [0]) (look b mask) (fun x hx => ht x (by rw [e1, hrc]; simp [hx]))
          refine ⟨m, ?_, fun v => ?_⟩
          · rw [← hul]
            have e5 : p ++ a ++ b ++ 0 :: (u ++ [0]) = (p ++ a ++ b ++ [0]) ++ u ++ [0] := by simp
            have e6 : p.length + a.length + b.length + 1 = (p ++ a ++ b ++ [0]).length := by simp; omega
            rw [e5, e6]; exact h1
          · rw [h2 v, look_mem, hN' v, or_assoc]

theorem setUnless_no (c : Ctx) (m : List Ver) (v x : Ver) : (setUnless c m v).no x = if x = v ∧ v ∉ m then true else c.no x := by
  unfold setUnless setNo; split <;> simp [*]

theorem clearNo_no (c : Ctx) (v x : Ver) : (clearNo c v).no x = if x = v then false else c.no x := rfl

theorem setUnless_rest (c : Ctx) (m : List Ver) (v : Ver) :
    (setUnless c m v).other = c.other ∧ (setUnless c m v).min = c.min ∧ (setUnless c m v).max = c.max := by
  unfold setUnless setNo; split <;> simp

theorem clearNo_rest (c : Ctx) (v : Ver) : (clearNo c v).other = c.other ∧ (clearNo c v).min = c.min ∧ (clearNo c v).max = c.max :=
  ⟨rfl, rfl, rfl⟩

/-! ## C50 -/

/-- **C50 (the listed versions, exactly).**  For every non-empty text of the configuration the call reads inside the copy only and
switches on exactly the versions named in it, whatever was set before; the other options are kept. -/
theorem protocols_exact (c : Ctx) (s : List UInt8) (hs : s ≠ []) (h0 : ∀ x ∈ s, x ≠ 0) :
    ∃ c', setProtocols c (some s) = some c' ∧ (∀ v, c'.no v = false ↔ Named s v) ∧ c'.other = c.other ∧ c'.min = none ∧ c'.max = some .tls13 := by
  obtain ⟨m, h1, h2⟩ := loop_eq s [] [] h0
  simp only [List.nil_append, List.length_nil, List.not_mem_nil, false_or] at h1 h2
  cases s with
  | nil => exact absurd rfl hs
  | cons x s =>
    simp only [setProtocols]
    rw [h1]
    refine ⟨_, rfl, ?_, ?_⟩
    · intro v
      rw [← h2 v]
      cases v <;> simp [setUnless_no, clearNo_no]
    · simp only [setUnless_rest, clearNo_rest, and_self]

/-- **C50 (what a connection can use).** -/
theorem protocols_usable (c : Ctx) (s : List UInt8) (hs : s ≠ []) (h0 : ∀ x ∈ s, x ≠ 0) {c' : Ctx} (h : setProtocols c (some s) = some c') (v : Ver) :
    c'.usable v ↔ Named s v := by
  obtain ⟨c2, h1, h2, _, h3, h4⟩ := protocols_exact c s hs h0
  rw [h] at h1; cases h1
  rw [← h2 v, Ctx.usable, h3, h4]
  constructor
  · exact fun h => h.2.2
  · intro h
    refine ⟨by simp, ?_, h⟩
    intro m hm; cases hm
    cases v <;> simp [rank]

/-- **C50 (no list).**  NULL and the empty text keep every switch; the bounds become "any version". -/
theorem protocols_none (c : Ctx) : setProtocols c none = some { c with min := none, max := some .tls13 } ∧ setProtocols c (some []) = setProtocols c none :=
  ⟨rfl, rfl⟩

/-! ## Concrete lists -/

def bytes (s : String) : List UInt8 := s.toUTF8.toList

/-- "TLSv1.2 tlsV1.3": these two -/
example : (loop (bytes "TLSv1.2 tlsV1.3" ++ [0]) 0 []) = some [.tls13, .tls12] := by decide +kernel
example : (setProtocols ⟨fun _ => false, 7, none, none⟩ (some (bytes " TLSv1.2\ttlsV1.3\n"))).map (fun c => [Ver.ssl2, .ssl3, .tls1, .tls11, .tls12, .tls13].map c.no) =
    some [true, true, true, true, false, false] := by decide +kernel
example : Named (bytes "TLSv1.2 tlsV1.3") .tls13 := ⟨bytes "tlsV1.3", ⟨bytes "TLSv1.2 ", [], by decide +kernel⟩, by decide +kernel⟩

/-! ## Findings -/

/-- **Finding (C50).** A list separated by commas (or by anything else than white space) names no version, and an unknown name is not
reported: every version is switched off and no client can connect (src/kgl_ssl.c:866-925). -/
example : (setProtocols ⟨fun _ => false, 0, none, none⟩ (some (bytes "TLSv1.2,TLSv1.3"))).map (fun c => [Ver.ssl2, .ssl3, .tls1, .tls11, .tls12, .tls13].map c.no) =
    some [true, true, true, true, true, true] := by decide +kernel

/-- **Finding (C50).** A text of blanks switches every version off, while the empty text keeps the switches set by an earlier call
(it does not restore the defaults). -/
example : (setProtocols ⟨fun _ => false, 0, none, none⟩ (some (bytes " "))).map (fun c => c.no .tls13) = some true ∧
    (((setProtocols ⟨fun _ => false, 0, none, none⟩ (some (bytes "TLSv1.2"))).bind (setProtocols · (some []))).map (fun c => c.no .tls13) = some true) := by
  decide +kernel

end Kasync.Tls.Proto
