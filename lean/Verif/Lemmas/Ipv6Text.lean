import Verif.Lemmas.Mask
namespace Acltk

theorem lt16_cases {k : Nat} (h : k < 16) : k = 0 ∨ k = 1 ∨ k = 2 ∨ k = 3 ∨ k = 4 ∨ k = 5 ∨ k = 6 ∨
    k = 7 ∨ k = 8 ∨ k = 9 ∨ k = 10 ∨ k = 11 ∨ k = 12 ∨ k = 13 ∨ k = 14 ∨ k = 15 := by omega

theorem hexVal_digitChar {k : Nat} (h : k < 16) : hexVal (Nat.digitChar k) = k := by
  rcases lt16_cases h with rfl|rfl|rfl|rfl|rfl|rfl|rfl|rfl|rfl|rfl|rfl|rfl|rfl|rfl|rfl|rfl <;> rfl

theorem isHexDigit_digitChar {k : Nat} (h : k < 16) : isHexDigit (Nat.digitChar k) = true := by
  rcases lt16_cases h with rfl|rfl|rfl|rfl|rfl|rfl|rfl|rfl|rfl|rfl|rfl|rfl|rfl|rfl|rfl|rfl <;> rfl

theorem hexText_digits (n : Nat) : ∀ c ∈ hexText n, ∃ k, k < 16 ∧ c = Nat.digitChar k := by
  unfold hexText
  induction n using Nat.strongRecOn with
  | _ n ih =>
    rw [Nat.toDigits_eq_if (by omega)]
    split
    · intro c hc; simp at hc; exact ⟨n, by omega, hc⟩
    · intro c hc
      rw [List.mem_append] at hc
      rcases hc with hc | hc
      · exact ih (n / 16) (by omega) c hc
      · simp at hc; exact ⟨n % 16, by omega, hc⟩

theorem hexText_val (n : Nat) : (hexText n).foldl (fun acc c => acc * 16 + hexVal c) 0 = n := by
  unfold hexText
  induction n using Nat.strongRecOn with
  | _ n ih =>
    rw [Nat.toDigits_eq_if (by omega)]
    split
    · simp [hexVal_digitChar (k := n) (by omega)]
    · rw [List.foldl_append, ih (n / 16) (by omega)]
      simp only [List.foldl_cons, List.foldl_nil]
      rw [hexVal_digitChar (by omega)]; omega

theorem hexText_ne_nil (n : Nat) : hexText n ≠ [] := Nat.toDigits_ne_nil

theorem hexText_cons (n : Nat) : ∃ c t, hexText n = c :: t := by
  cases h : hexText n with
  | nil => exact absurd h (hexText_ne_nil n)
  | cons c t => exact ⟨c, t, rfl⟩

theorem parseHextet_hexText {n : Nat} (h : n < 2 ^ 16) : parseHextet (hexText n) = some n := by
  unfold parseHextet
  have h1 : (hexText n).all isHexDigit = true := by
    rw [List.all_eq_true]; intro c hc
    obtain ⟨k, hk, rfl⟩ := hexText_digits n c hc
    exact isHexDigit_digitChar hk
  have h2 : ¬ (hexText n).length > 4 := by
    have := (Nat.length_toDigits_le_iff (b := 16) (n := n) (k := 4) (by omega) (by omega)).2 (by omega)
    unfold hexText; omega
  rw [if_neg (by simp [h1]), if_neg h2, if_neg (by simp [hexText_ne_nil]), hexText_val]

theorem hexText_no {n : Nat} {c : Char} (h : isHexDigit c = false) : c ∉ hexText n := by
  intro hm
  obtain ⟨k, hk, rfl⟩ := hexText_digits n c hm
  rw [isHexDigit_digitChar hk] at h; cases h

theorem hexText_eq_zero {n : Nat} (h : hexText n = ['0']) : n = 0 := by
  have := hexText_val n
  rw [h] at this; simpa [hexVal] using this.symm

theorem hexVal_lt {c : Char} (h : isHexDigit c = true) : hexVal c < 16 := by
  unfold hexVal
  unfold isHexDigit at h
  split
  · rename_i hd
    obtain ⟨k, hk, _, hv⟩ := isDigit_val hd
    omega
  · rename_i hd
    simp only [hd, Bool.false_or, Bool.or_eq_true] at h
    split
    · rename_i ha
      simp only [Bool.and_eq_true, decide_eq_true_eq, Char.le_def, UInt32.le_iff_toNat_le] at ha
      have e1 : 'a'.val.toNat = 97 := rfl
      have e2 : 'f'.val.toNat = 102 := rfl
      have e3 : c.toNat = c.val.toNat := rfl
      have e4 : 'a'.toNat = 97 := rfl
      omega
    · rename_i ha
      rcases h with h | h
      · exact absurd h ha
      · simp only [Bool.and_eq_true, decide_eq_true_eq, Char.le_def, UInt32.le_iff_toNat_le] at h
        have e1 : 'A'.val.toNat = 65 := rfl
        have e2 : 'F'.val.toNat = 70 := rfl
        have e3 : c.toNat = c.val.toNat := rfl
        have e4 : 'A'.toNat = 65 := rfl
        omega

theorem foldl_hex_lt {s : List Char} (h : s.all isHexDigit = true) (acc : Nat) :
    s.foldl (fun acc c => acc * 16 + hexVal c) acc < (acc + 1) * 16 ^ s.length := by
  induction s generalizing acc with
  | nil => simp
  | cons c t ih =>
    rw [List.all_cons, Bool.and_eq_true] at h
    have hc := hexVal_lt h.1
    refine Nat.lt_of_lt_of_le (ih h.2 _) ?_
    simp only [List.length_cons, Nat.pow_succ]
    rw [Nat.mul_comm (16 ^ t.length) 16, ← Nat.mul_assoc]
    exact Nat.mul_le_mul_right _ (by omega)

theorem parseHextet_lt {s : List Char} {n : Nat} (h : parseHextet s = some n) : n < 2 ^ 16 := by
  unfold parseHextet at h
  split at h; · simp at h
  rename_i h1
  split at h; · simp at h
  rename_i h2
  split at h; · simp at h
  simp only [Option.some.injEq] at h
  subst h
  have := foldl_hex_lt (s := s) (by simpa using h1) 0
  have h3 : 16 ^ s.length ≤ 16 ^ 4 := Nat.pow_le_pow_right (by omega) (by omega)
  omega

theorem parseHextets_lt {ps : List (List Char)} {acc r : Nat} (h : parseHextets acc ps = some r) :
    r < (acc + 1) * 2 ^ (16 * ps.length) := by
  induction ps generalizing acc with
  | nil => simp [parseHextets] at h; subst h; simp
  | cons p ps ih =>
    unfold parseHextets at h
    split at h; · simp at h
    rename_i x hx
    have hx := parseHextet_lt hx
    refine Nat.lt_of_lt_of_le (ih h) ?_
    have e : 2 ^ (16 * (p :: ps).length) = 2 ^ 16 * 2 ^ (16 * ps.length) := by
      rw [← Nat.pow_add]; congr 1; simp [Nat.mul_add]; omega
    rw [e, ← Nat.mul_assoc]
    exact Nat.mul_le_mul_right _ (by omega)

theorem parseV6Parts_lt {parts : List (List Char)} {n : Nat} (h : parseV6Parts parts = some n) :
    n < 2 ^ 128 := by
  unfold parseV6Parts at h
  split at h; · simp at h
  simp only at h
  split at h
  · simp at h
  · rename_i skip hs
    revert h
    generalize (if (parts.head?.getD []).isEmpty = true then skip - 1 else skip) = hi
    generalize (if (parts.getLast?.getD []).isEmpty = true then parts.length - skip - 1 - 1
      else parts.length - skip - 1) = lo
    intro h
    split at h; · simp at h
    split at h; · simp at h
    split at h; · simp at h
    rename_i hle
    split at h; · simp at h
    rename_i x hx
    have hx := parseHextets_lt hx
    have hy := parseHextets_lt h
    have hl1 : (parts.take hi).length ≤ hi := by simp; omega
    have hl2 : (parts.drop (parts.length - lo)).length ≤ lo := by simp; omega
    have hx' : x + 1 ≤ 2 ^ (16 * hi) := by
      have : 2 ^ (16 * (parts.take hi).length) ≤ 2 ^ (16 * hi) :=
        Nat.pow_le_pow_right (by omega) (by omega)
      omega
    generalize hsk : 8 - (hi + lo) = sk at hy
    have hpos := Nat.two_pow_pos (16 * sk)
    have h1 : x * 2 ^ (16 * sk) + 1 ≤ 2 ^ (16 * hi) * 2 ^ (16 * sk) := by
      have : (x + 1) * 2 ^ (16 * sk) ≤ 2 ^ (16 * hi) * 2 ^ (16 * sk) := Nat.mul_le_mul_right _ hx'
      rw [Nat.add_mul] at this; omega
    have h2 : 2 ^ (16 * (parts.drop (parts.length - lo)).length) ≤ 2 ^ (16 * lo) :=
      Nat.pow_le_pow_right (by omega) (by omega)
    calc n < _ := hy
      _ ≤ (2 ^ (16 * hi) * 2 ^ (16 * sk)) * 2 ^ (16 * lo) := Nat.mul_le_mul h1 h2
      _ = 2 ^ (16 * hi + 16 * sk + 16 * lo) := by rw [← Nat.pow_add, ← Nat.pow_add]
      _ = 2 ^ 128 := by congr 1; omega
  · split at h; · simp at h
    rename_i hl
    split at h; · simp at h
    have := parseHextets_lt h
    have hl' : parts.length = 8 := by omega
    rw [hl'] at this; simpa using this

theorem parseV6_lt {s : List Char} {n : Nat} (h : parseV6 s = some n) : n < 2 ^ 128 := by
  unfold parseV6 at h
  simp only at h
  split at h; · simp at h
  split at h
  · split at h; · simp at h
    exact parseV6Parts_lt h
  · exact parseV6Parts_lt h

/-! ## round trip -/

/-- The scan finds a run of zeros. -/
theorem bestRun_ok (l : List Bool) : ∀ (zs pre : List Bool) (cs cl bs bl : Nat),
    l = pre ++ zs →
    (cl ≠ 0 → cs + cl = pre.length) → (∀ j, cs ≤ j → j < cs + cl → cl ≠ 0 → l[j]? = some true) →
    (bs + bl ≤ l.length) → (∀ j, bs ≤ j → j < bs + bl → l[j]? = some true) →
    let r := bestRun zs pre.length cs cl bs bl
    r.1 + r.2 ≤ l.length ∧ ∀ j, r.1 ≤ j → j < r.1 + r.2 → l[j]? = some true := by
  intro zs
  induction zs with
  | nil => intro pre cs cl bs bl _ _ _ h1 h2; exact ⟨h1, h2⟩
  | cons z zs ih =>
    intro pre cs cl bs bl hl hc1 hc2 hb1 hb2
    have hl' : l = (pre ++ [z]) ++ zs := by simp [hl]
    have hlen : (pre ++ [z]).length = pre.length + 1 := by simp
    have hz : l[pre.length]? = some z := by rw [hl]; simp
    have hle : pre.length + 1 ≤ l.length := by rw [hl]; simp
    unfold bestRun
    by_cases hzt : z = true
    · simp only [hzt, if_true]
      have k1 : (if cl = 0 then pre.length else cs) + (cl + 1) = pre.length + 1 := by
        split
        · omega
        · rename_i h; have := hc1 h; omega
      have k2 : ∀ j, (if cl = 0 then pre.length else cs) ≤ j →
          j < (if cl = 0 then pre.length else cs) + (cl + 1) → l[j]? = some true := by
        intro j h1 h2
        rw [k1] at h2
        by_cases hj : j = pre.length
        · rw [hj, hz, hzt]
        · split at h1
          · omega
          · rename_i h; have := hc1 h
            exact hc2 j h1 (by omega) h
      split
      · rw [← hlen]
        exact ih (pre ++ [z]) _ _ _ _ hl' (by intro _; rw [hlen]; exact k1)
          (fun j a b _ => k2 j a b) (by rw [k1]; exact hle) k2
      · rw [← hlen]
        exact ih (pre ++ [z]) _ _ _ _ hl' (by intro _; rw [hlen]; exact k1)
          (fun j a b _ => k2 j a b) hb1 hb2
    · rw [if_neg hzt, ← hlen]
      exact ih (pre ++ [z]) _ _ _ _ hl' (by simp) (by simp) hb1 hb2

theorem parseHextets_hexText (l : List Nat) (h : ∀ x ∈ l, x < 2 ^ 16) (acc : Nat) :
    parseHextets acc (l.map hexText) = some (l.foldl (fun a x => a * 2 ^ 16 + x) acc) := by
  induction l generalizing acc with
  | nil => rfl
  | cons x xs ih =>
    simp only [List.map_cons, parseHextets, parseHextet_hexText (h x (by simp)), List.foldl_cons]
    exact ih (fun y hy => h y (by simp [hy])) _

theorem fmtV6_parts {a0 a1 a2 a3 a4 a5 a6 a7 : Nat}
    (h : ∀ x ∈ [a0, a1, a2, a3, a4, a5, a6, a7], x < 2 ^ 16) :
    parseV6Parts (compressHextets ([a0, a1, a2, a3, a4, a5, a6, a7].map hexText)) =
      some ([a0, a1, a2, a3, a4, a5, a6, a7].foldl (fun a x => a * 2 ^ 16 + x) 0) := by
  have hb := bestRun_ok (([a0, a1, a2, a3, a4, a5, a6, a7].map hexText).map (· == ['0']))
    (([a0, a1, a2, a3, a4, a5, a6, a7].map hexText).map (· == ['0'])) [] 0 0 0 0 rfl
    (by simp) (by simp) (by simp) (by simp)
  simp only [List.length_nil] at hb
  unfold compressHextets
  simp only
  generalize bestRun (([a0, a1, a2, a3, a4, a5, a6, a7].map hexText).map (· == ['0'])) 0 0 0 0 0 = r at hb
  obtain ⟨s, l⟩ := r
  simp only at hb
  obtain ⟨hlen, hz⟩ := hb
  simp only [List.length_map, List.length_cons, List.length_nil] at hlen
  -- zeros
  have hzero : ∀ j, s ≤ j → j < s + l → ∀ x, [a0, a1, a2, a3, a4, a5, a6, a7][j]? = some x → x = 0 := by
    intro j h1 h2 x hx
    have := hz j h1 h2
    rw [List.getElem?_map, List.getElem?_map, hx] at this
    simp at this
    exact hexText_eq_zero this
  clear hz
  have ht := fun l hl => parseHextets_hexText l hl
  obtain ⟨c0, t0, e0⟩ := hexText_cons a0
  obtain ⟨c1, t1, e1⟩ := hexText_cons a1
  obtain ⟨c2, t2, e2⟩ := hexText_cons a2
  obtain ⟨c3, t3, e3⟩ := hexText_cons a3
  obtain ⟨c4, t4, e4⟩ := hexText_cons a4
  obtain ⟨c5, t5, e5⟩ := hexText_cons a5
  obtain ⟨c6, t6, e6⟩ := hexText_cons a6
  obtain ⟨c7, t7, e7⟩ := hexText_cons a7
  by_cases hl : l > 1
  · have p : ∀ x ∈ [a0, a1, a2, a3, a4, a5, a6, a7], parseHextet (hexText x) = some x :=
      fun x hx => parseHextet_hexText (h x hx)
    simp only [List.mem_cons, List.not_mem_nil, or_false, forall_eq_or_imp, forall_eq] at p
    obtain ⟨p0, p1, p2, p3, p4, p5, p6, p7⟩ := p
    have z0 := hzero 0; have z1 := hzero 1; have z2 := hzero 2; have z3 := hzero 3
    have z4 := hzero 4; have z5 := hzero 5; have z6 := hzero 6; have z7 := hzero 7
    simp only [List.getElem?_cons_zero, List.getElem?_cons_succ, Option.some.injEq, forall_eq'] at z0 z1 z2 z3 z4 z5 z6 z7
    rw [if_pos hl]
    simp only [List.map_cons, List.map_nil, List.foldl_cons, List.foldl_nil]
    rw [e0] at p0 ⊢; rw [e1] at p1 ⊢; rw [e2] at p2 ⊢; rw [e3] at p3 ⊢
    rw [e4] at p4 ⊢; rw [e5] at p5 ⊢; rw [e6] at p6 ⊢; rw [e7] at p7 ⊢
    have hcase : ∃ s' l', s = s' ∧ l = l' := ⟨s, l, rfl, rfl⟩
    clear ht h hzero hcase
    have hs : s = 0 ∨ s = 1 ∨ s = 2 ∨ s = 3 ∨ s = 4 ∨ s = 5 ∨ s = 6 := by omega
    have hl' : l = 2 ∨ l = 3 ∨ l = 4 ∨ l = 5 ∨ l = 6 ∨ l = 7 ∨ l = 8 := by omega
    rcases hs with rfl | rfl | rfl | rfl | rfl | rfl | rfl <;>
    rcases hl' with rfl | rfl | rfl | rfl | rfl | rfl | rfl <;>
    first
    | (exfalso; omega)
    | (simp only [Nat.reduceLeDiff, Nat.reduceAdd, Nat.reduceLT, forall_const, false_implies, Nat.le_refl] at z0 z1 z2 z3 z4 z5 z6 z7
       simp (decide := true) only [parseV6Parts, emptyInner, List.range, List.range.loop, List.filter, List.take, List.drop,
         List.length, List.cons_append, List.nil_append, if_true, if_false, List.append_nil,
         List.isEmpty, List.getD, List.head?, List.getLast?, List.getLast, Option.getD,
         List.getElem?_cons_zero, List.getElem?_cons_succ, parseHextets, p0, p1, p2, p3, p4, p5, p6, p7,
         Bool.and_true, Bool.and_false]
       simp [parseHextets, *]
       try omega)
  · rw [if_neg hl]
    rw [← ht _ h 0]
    simp only [List.map_cons, List.map_nil]
    rw [e0, e1, e2, e3, e4, e5, e6, e7]
    rfl

theorem hextets_val {n : Nat} (h : n < 2 ^ 128) :
    (hextets n).foldl (fun a x => a * 2 ^ 16 + x) 0 = n := by
  simp only [hextets, List.foldl_cons, List.foldl_nil]
  omega

theorem mem_compress {h : List (List Char)} {p : List Char} (hp : p ∈ compressHextets h) :
    p = [] ∨ p ∈ h := by
  unfold compressHextets at hp
  simp only at hp
  split at hp
  · simp only [List.mem_append] at hp
    rcases hp with (((hp | hp) | hp) | hp) | hp
    · split at hp <;> simp at hp; exact .inl hp
    · exact .inr (List.mem_of_mem_take hp)
    · simp at hp; exact .inl hp
    · exact .inr (List.mem_of_mem_drop hp)
    · split at hp <;> simp at hp; exact .inl hp
  · exact .inr hp

theorem compress_length {h : List (List Char)} (hl : 8 = h.length) : 3 ≤ (compressHextets h).length := by
  have hb := bestRun_ok (h.map (· == ['0'])) (h.map (· == ['0'])) [] 0 0 0 0 rfl
    (by simp) (by simp) (by simp) (by simp)
  simp only [List.length_nil] at hb
  unfold compressHextets
  simp only
  generalize bestRun (h.map (· == ['0'])) 0 0 0 0 0 = r at hb
  obtain ⟨s, l⟩ := r
  simp only at hb
  have hlen := hb.1
  simp only [List.length_map] at hlen
  split
  · simp only [List.length_append, List.length_take, List.length_drop, List.length_cons, List.length_nil]
    split <;> split <;> simp <;> omega
  · omega

theorem parseV6_fmtV6 {n : Nat} (h : n < 2 ^ 128) : parseV6 (fmtV6 n) = some n := by
  have hlt : ∀ x ∈ hextets n, x < 2 ^ 16 := by
    intro x hx
    simp only [hextets, List.mem_cons, List.not_mem_nil, or_false] at hx
    omega
  have hno : ∀ c, isHexDigit c = false → ∀ p ∈ compressHextets ((hextets n).map hexText), c ∉ p := by
    intro c hc p hp
    rcases mem_compress hp with rfl | hp
    · simp
    · obtain ⟨x, _, rfl⟩ := List.mem_map.1 hp
      exact hexText_no hc
  have hlen := compress_length (h := (hextets n).map hexText) (by simp [hextets])
  have hne : compressHextets ((hextets n).map hexText) ≠ [] := by
    intro e; rw [e] at hlen; simp at hlen
  unfold parseV6 fmtV6
  rw [splitOn_joinWith hne (hno ':' rfl)]
  simp only
  rw [if_neg (by omega)]
  have hdot : '.' ∉ (compressHextets ((hextets n).map hexText)).getLast?.getD [] := by
    cases hl : (compressHextets ((hextets n).map hexText)).getLast? with
    | none => simp
    | some p => exact hno '.' rfl p (List.mem_of_getLast? hl)
  rw [if_neg hdot]
  have := fmtV6_parts (a0 := n / 2 ^ 112 % 2 ^ 16) (a1 := n / 2 ^ 96 % 2 ^ 16)
    (a2 := n / 2 ^ 80 % 2 ^ 16) (a3 := n / 2 ^ 64 % 2 ^ 16) (a4 := n / 2 ^ 48 % 2 ^ 16)
    (a5 := n / 2 ^ 32 % 2 ^ 16) (a6 := n / 2 ^ 16 % 2 ^ 16) (a7 := n % 2 ^ 16) hlt
  have hv := hextets_val h
  unfold hextets at hv ⊢
  rw [this, hv]

theorem mem_joinWith {c x : Char} {ps : List (List Char)} (h : x ∈ joinWith c ps) :
    x = c ∨ ∃ p ∈ ps, x ∈ p := by
  induction ps with
  | nil => simp [joinWith] at h
  | cons p ps ih =>
    cases ps with
    | nil => simp [joinWith] at h; exact .inr ⟨p, by simp, h⟩
    | cons q qs =>
      rw [joinWith, List.mem_append, List.mem_cons] at h
      rcases h with h | h | h
      · exact .inr ⟨p, by simp, h⟩
      · exact .inl h
      · rcases ih h with h | ⟨r, hr, h⟩
        · exact .inl h
        · exact .inr ⟨r, by simp [hr], h⟩

theorem fmtV6_no {n : Nat} {c : Char} (h1 : isHexDigit c = false) (h2 : c ≠ ':') : c ∉ fmtV6 n := by
  intro h
  rcases mem_joinWith h with h | ⟨p, hp, h⟩
  · exact h2 h
  · rcases mem_compress hp with rfl | hp
    · simp at h
    · obtain ⟨x, _, rfl⟩ := List.mem_map.1 hp
      exact hexText_no h1 h

theorem ipAddress_text {a : Addr} (ha : a.Valid) : ipAddress a.text = .ok a := by
  obtain ⟨v, ip⟩ := a
  cases v with
  | v4 =>
    show ipAddress (fmtV4 ip) = _
    unfold ipAddress
    rw [if_neg (fmtV4_no ip rfl (by decide)), parseV4_fmtV4 ha]
  | v6 =>
    show ipAddress (fmtV6 ip) = _
    have h4 : parseV4 (fmtV6 ip) = none := by
      cases hp : parseV4 (fmtV6 ip) with
      | none => rfl
      | some n =>
        obtain ⟨_, e⟩ := parseV4_some hp
        have := fmtV4_has_dot n
        rw [← e] at this
        exact absurd this (fmtV6_no rfl (by decide))
    unfold ipAddress
    rw [if_neg (fmtV6_no rfl (by decide)), h4, parseV6_fmtV6 ha]

theorem ipAddress_valid {s : List Char} {x : Addr} (h : ipAddress s = .ok x) : x.Valid := by
  obtain ⟨_, ⟨hv, hp⟩ | ⟨hv, _, hp⟩⟩ := ipAddress_ok h
  · unfold Addr.Valid; rw [hv]; exact (parseV4_some hp).1
  · unfold Addr.Valid; rw [hv]; exact parseV6_lt hp

/-- `Network(address, mask)` once the address text is known to denote `x`. -/
theorem mkNetwork_of_address {a m : List Char} {x : Addr} (h : ipAddress a = .ok x) :
    mkNetwork a m = match makeNetmask x.ver m with
      | some p => .ok (mkNet x p)
      | none => .error .value := by
  obtain ⟨hs, hx⟩ := ipAddress_ok h
  by_cases hm : '/' ∈ m
  · rw [mkNetwork_slash (.inr hm)]
    cases hmk : makeNetmask x.ver m with
    | none => rfl
    | some p => exact absurd hm (makeNetmask_no_slash hmk)
  · rw [mkNetwork_eq hs hm]
    unfold netOfParts
    rcases hx with ⟨hv, hp⟩ | ⟨hv, hp4, hp⟩
    · have h6 : parseV6 a = none := by
        obtain ⟨_, rfl⟩ := parseV4_some hp
        exact parseV6_no_colon (fmtV4_no _ rfl (by decide))
      simp only [hp, h6, hv]
      cases makeNetmask .v4 m with
      | none => rfl
      | some p => simp [mkNet, hv]
    · simp only [hp, hp4, hv]
      cases makeNetmask .v6 m with
      | none => rfl
      | some p => simp [mkNet, hv]

theorem mkNetwork_of_bad_address {a m : List Char} (h : ∀ x, ipAddress a ≠ .ok x) :
    mkNetwork a m = .error .value := by
  by_cases hs : '/' ∈ a ∨ '/' ∈ m
  · exact mkNetwork_slash hs
  · simp only [not_or] at hs
    rw [mkNetwork_eq hs.1 hs.2]
    have h4 : parseV4 a = none := by
      cases hp : parseV4 a with
      | none => rfl
      | some n => exact absurd (show ipAddress a = .ok ⟨.v4, n⟩ by
          unfold ipAddress; rw [if_neg hs.1, hp]) (h _)
    have h6 : parseV6 a = none := by
      cases hp : parseV6 a with
      | none => rfl
      | some n => exact absurd (show ipAddress a = .ok ⟨.v6, n⟩ by
          unfold ipAddress; rw [if_neg hs.1, h4, hp]) (h _)
    unfold netOfParts
    simp [h4, h6]

end Acltk
