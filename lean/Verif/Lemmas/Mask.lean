import Verif.Model.Mask
import Verif.Lemmas.Text
namespace Acltk

/-! ## octets and IPv4 text -/

theorem parseOctet_iff {s : List Char} {n : Nat} : parseOctet s = some n ↔ n ≤ 255 ∧ s = decText n := by
  unfold parseOctet
  constructor
  · intro h
    split at h; · simp at h
    rename_i hd
    split at h; · simp at h
    split at h; · simp at h
    rename_i hz
    split at h; · simp at h
    rename_i h255
    simp only [Option.some.injEq] at h
    subst h
    refine ⟨by omega, ?_⟩
    exact (decText_ofDigitChars (by simpa using hd) hz).symm
  · rintro ⟨hn, rfl⟩
    have h1 := isDigits_decText n
    have h2 : ¬ (decText n).length > 3 := by
      have := (decText_length_le (n := n) (k := 3) (by omega)).2 (by omega)
      omega
    rw [if_neg (by simp [h1]), if_neg h2, if_neg (decText_no_leading_zero n), ofDigitChars_decText,
      if_neg (by omega)]

theorem dot_not_mem_decText (n : Nat) {c : Char} (hc : c.isDigit = false) : c ∉ decText n := by
  intro h
  have := Nat.isDigit_of_mem_toDigits (by omega) (by omega) h
  rw [hc] at this; cases this

theorem splitOn_fmtV4 (n : Nat) : splitOn '.' (fmtV4 n) =
    [decText (n / 2 ^ 24 % 256), decText (n / 2 ^ 16 % 256), decText (n / 2 ^ 8 % 256),
      decText (n % 256)] := by
  unfold fmtV4
  apply splitOn_joinWith (by simp)
  intro p hp
  simp only [List.mem_cons, List.not_mem_nil, or_false] at hp
  rcases hp with rfl | rfl | rfl | rfl <;> exact dot_not_mem_decText _ rfl

theorem parseV4_fmtV4 {n : Nat} (hn : n < 2 ^ 32) : parseV4 (fmtV4 n) = some n := by
  unfold parseV4
  rw [splitOn_fmtV4]
  have p1 : parseOctet (decText (n / 2 ^ 24 % 256)) = some (n / 2 ^ 24 % 256) :=
    parseOctet_iff.2 ⟨by omega, rfl⟩
  have p2 : parseOctet (decText (n / 2 ^ 16 % 256)) = some (n / 2 ^ 16 % 256) :=
    parseOctet_iff.2 ⟨by omega, rfl⟩
  have p3 : parseOctet (decText (n / 2 ^ 8 % 256)) = some (n / 2 ^ 8 % 256) :=
    parseOctet_iff.2 ⟨by omega, rfl⟩
  have p4 : parseOctet (decText (n % 256)) = some (n % 256) := parseOctet_iff.2 ⟨by omega, rfl⟩
  simp only [p1, p2, p3, p4, Option.some.injEq]
  omega

theorem parseV4_some {s : List Char} {n : Nat} (h : parseV4 s = some n) : n < 2 ^ 32 ∧ s = fmtV4 n := by
  unfold parseV4 at h
  split at h
  · rename_i a b c d hs
    split at h
    · rename_i a' b' c' d' ha hb hc hd
      simp only [Option.some.injEq] at h
      obtain ⟨ha1, rfl⟩ := parseOctet_iff.1 ha
      obtain ⟨hb1, rfl⟩ := parseOctet_iff.1 hb
      obtain ⟨hc1, rfl⟩ := parseOctet_iff.1 hc
      obtain ⟨hd1, rfl⟩ := parseOctet_iff.1 hd
      refine ⟨by omega, ?_⟩
      rw [← joinWith_splitOn '.' s, hs]
      unfold fmtV4
      have e1 : n / 2 ^ 24 % 256 = a' := by omega
      have e2 : n / 2 ^ 16 % 256 = b' := by omega
      have e3 : n / 2 ^ 8 % 256 = c' := by omega
      have e4 : n % 256 = d' := by omega
      rw [e1, e2, e3, e4]
    · simp at h
  · simp at h

theorem parseV4_iff {s : List Char} {n : Nat} : parseV4 s = some n ↔ n < 2 ^ 32 ∧ s = fmtV4 n :=
  ⟨parseV4_some, fun ⟨h, e⟩ => by rw [e]; exact parseV4_fmtV4 h⟩

theorem fmtV4_chars {n : Nat} {c : Char} (h : c ∈ fmtV4 n) : c.isDigit = true ∨ c = '.' := by
  unfold fmtV4 at h
  simp only [joinWith, List.mem_append, List.mem_cons] at h
  have d : ∀ k, c ∈ decText k → c.isDigit = true := fun k hk =>
    Nat.isDigit_of_mem_toDigits (by omega) (by omega) hk
  rcases h with h | h | h | h | h | h | h
  · exact .inl (d _ h)
  · exact .inr h
  · exact .inl (d _ h)
  · exact .inr h
  · exact .inl (d _ h)
  · exact .inr h
  · exact .inl (d _ h)

theorem fmtV4_has_dot (n : Nat) : '.' ∈ fmtV4 n := by
  unfold fmtV4; simp [joinWith]

theorem fmtV4_no (n : Nat) {c : Char} (h1 : c.isDigit = false) (h2 : c ≠ '.') : c ∉ fmtV4 n := by
  intro h
  rcases fmtV4_chars h with h | h
  · rw [h1] at h; cases h
  · exact h2 h

theorem parseV6_no_colon {s : List Char} (h : ':' ∉ s) : parseV6 s = none := by
  unfold parseV6
  rw [splitOn_of_not_mem h]; rfl

theorem parseV4_colon {s : List Char} (h : ':' ∈ s) : parseV4 s = none := by
  cases hp : parseV4 s with
  | none => rfl
  | some n =>
    obtain ⟨_, rfl⟩ := parseV4_some hp
    exact absurd h (fmtV4_no n rfl (by decide))

/-! ## masks -/

theorem countRightZeros_odd {n k m bits : Nat} (h : n = 2 ^ k * (2 * m + 1)) :
    countRightZeros n bits = min bits k := by
  unfold countRightZeros
  have : n ≠ 0 := by
    rw [h]; have := Nat.two_pow_pos k
    exact Nat.ne_of_gt (Nat.mul_pos this (by omega))
  rw [if_neg this, andNot_pred h, log2_two_pow_sub_one]

theorem width_pos (v : Ver) : 0 < v.width := by cases v <;> decide

theorem prefixFromInt_iff {v : Ver} {ip p : Nat} (hip : ip < 2 ^ v.width) :
    prefixFromInt v ip = some p ↔ p ≤ v.width ∧ ip = 2 ^ v.width - 2 ^ (v.width - p) := by
  unfold prefixFromInt
  simp only [Nat.one_shiftLeft, Nat.shiftRight_eq_div_pow]
  by_cases h0 : ip = 0
  · subst h0
    have hc : countRightZeros 0 v.width = v.width := by simp [countRightZeros]
    rw [hc]
    simp only [Nat.zero_div, Nat.sub_self]
    simp only [ne_eq, not_true_eq_false, if_false, Option.some.injEq]
    constructor
    · rintro rfl; exact ⟨by omega, by simp⟩
    · rintro ⟨hp, h⟩
      rcases Nat.eq_zero_or_pos p with rfl | hpos
      · rfl
      · exfalso
        have : 2 ^ (v.width - p) < 2 ^ v.width := Nat.pow_lt_pow_right (by omega) (by omega)
        omega
  · obtain ⟨k, m, hkm⟩ := exists_odd_part ip h0
    have hp2 := Nat.two_pow_pos k
    have hk : k < v.width := by
      have : 2 ^ k ≤ ip := by rw [hkm]; exact Nat.le_mul_of_pos_right _ (by omega)
      exact (Nat.pow_lt_pow_iff_right (by omega : 1 < 2)).1 (Nat.lt_of_le_of_lt this hip)
    rw [countRightZeros_odd hkm, Nat.min_eq_right (Nat.le_of_lt hk)]
    have hdiv : ip / 2 ^ k = 2 * m + 1 := by rw [hkm]; exact Nat.mul_div_cancel_left _ hp2
    rw [hdiv]
    have hsplit : 2 ^ v.width = 2 ^ k * 2 ^ (v.width - k) := by
      rw [← Nat.pow_add]; congr 1; omega
    constructor
    · intro h
      split at h
      · simp at h
      · rename_i hq
        simp only [Option.some.injEq] at h
        subst h
        refine ⟨by omega, ?_⟩
        have e : v.width - (v.width - k) = k := by omega
        rw [e, hkm]
        have hq' : 2 * m + 1 = 2 ^ (v.width - k) - 1 := by
          by_cases hh : 2 * m + 1 = 2 ^ (v.width - k) - 1
          · exact hh
          · exact absurd hh hq
        rw [hq', Nat.mul_sub, Nat.mul_one, ← hsplit]
    · rintro ⟨hp, h⟩
      have hkp : v.width - p = k := by
        -- 2^w - 2^(w-p) = 2^(w-p) * (2^p - 1); odd part exponent is w-p
        have hp0 : p ≠ 0 := by
          rintro rfl; simp at h; exact h0 h
        have e1 : 2 ^ v.width = 2 ^ (v.width - p) * 2 ^ p := by rw [← Nat.pow_add]; congr 1; omega
        have e2 : ip = 2 ^ (v.width - p) * (2 * (2 ^ (p - 1) - 1) + 1) := by
          rw [h, e1]
          have : 2 * (2 ^ (p - 1) - 1) + 1 = 2 ^ p - 1 := by
            have e3 : 2 ^ p = 2 * 2 ^ (p - 1) := by rw [← Nat.pow_succ']; congr 1; omega
            have := Nat.two_pow_pos (p - 1)
            omega
          rw [this, Nat.mul_sub, Nat.mul_one]
        have a1 := countRightZeros_odd (bits := v.width + k) e2
        have a2 := countRightZeros_odd (bits := v.width + k) hkm
        rw [a1] at a2
        omega
      have hq : 2 * m + 1 = 2 ^ (v.width - k) - 1 := by
        rw [hkp] at h
        rw [hkm, hsplit] at h
        have : 2 ^ k * (2 * m + 1) = 2 ^ k * (2 ^ (v.width - k) - 1) := by
          rw [h, Nat.mul_sub, Nat.mul_one]
        exact Nat.eq_of_mul_eq_mul_left hp2 this
      rw [if_neg (by simpa using hq)]
      simp only [Option.some.injEq]; omega

theorem xor_allOnes {ip : Nat} (v : Ver) (h : ip < 2 ^ v.width) : ip ^^^ v.allOnes = 2 ^ v.width - 1 - ip := by
  apply Nat.eq_of_testBit_eq; intro i
  rw [Nat.testBit_xor, testBit_allOnes]
  have e : 2 ^ v.width - 1 - ip = 2 ^ v.width - (ip + 1) := by omega
  rw [e, Nat.testBit_two_pow_sub_succ h]
  by_cases hi : i < v.width
  · simp [hi]
  · have := testBit_ge h (Nat.le_of_not_lt hi)
    simp [hi, this]

theorem prefixString_iff {v : Ver} {s : List Char} {n : Nat} : prefixFromPrefixString v s = some n ↔
    isDigits s = true ∧ s.length ≤ 4300 ∧ Nat.ofDigitChars 10 s 0 = n ∧ n ≤ v.width := by
  unfold prefixFromPrefixString intOfDigits
  by_cases h : isDigits s = true ∧ s.length ≤ 4300
  · simp only [h, if_true, and_self, true_and]
    split <;> simp <;> omega
  · rw [if_neg h]
    simp only [reduceCtorEq, false_iff]
    rintro ⟨h1, h2, _⟩; exact h ⟨h1, h2⟩

theorem decText_prefix {v : Ver} {n : Nat} (h : n ≤ v.width) : prefixFromPrefixString v (decText n) = some n := by
  rw [prefixString_iff]
  refine ⟨isDigits_decText n, ?_, ofDigitChars_decText n, h⟩
  have : n ≤ 128 := by cases v <;> simp [Ver.width] at h <;> omega
  have := (decText_length_le (n := n) (k := 3) (by omega)).2 (by omega)
  omega

theorem makeNetmask_decText {v : Ver} {n : Nat} (h : n ≤ v.width) : makeNetmask v (decText n) = some n := by
  cases v with
  | v4 => simp [makeNetmask, decText_prefix h]
  | v6 => simp [makeNetmask, decText_prefix h]

theorem digits_no_dot {s : List Char} (h : isDigits s = true) : '.' ∉ s := by
  intro hm
  unfold isDigits at h
  rw [Bool.and_eq_true, List.all_eq_true] at h
  exact absurd (h.2 _ hm) (by decide)

theorem prefixString_of_dot {v : Ver} {s : List Char} (h : '.' ∈ s) : prefixFromPrefixString v s = none := by
  cases hp : prefixFromPrefixString v s with
  | none => rfl
  | some n => exact absurd h (digits_no_dot (prefixString_iff.1 hp).1)

/-- Netmask / hostmask reading of an IPv4 address. -/
theorem prefixFromIpString_fmt {ip : Nat} (h : ip < 2 ^ 32) :
    prefixFromIpString (fmtV4 ip) = match prefixFromInt .v4 ip with
      | some p => some p
      | none => prefixFromInt .v4 (2 ^ 32 - 1 - ip) := by
  unfold prefixFromIpString
  rw [parseV4_fmtV4 h]
  simp only [xor_allOnes .v4 h]; rfl

theorem makeNetmask_v4_dotted {ip : Nat} (h : ip < 2 ^ 32) :
    makeNetmask .v4 (fmtV4 ip) = match prefixFromInt .v4 ip with
      | some p => some p
      | none => prefixFromInt .v4 (2 ^ 32 - 1 - ip) := by
  rw [← prefixFromIpString_fmt h]
  simp [makeNetmask, prefixString_of_dot (fmtV4_has_dot ip)]

theorem makeNetmask_no_slash {v : Ver} {s : List Char} {p : Nat} (h : makeNetmask v s = some p) : '/' ∉ s := by
  have key : ∀ v n, prefixFromPrefixString v s = some n → '/' ∉ s := by
    intro v n hp hm
    have := (prefixString_iff.1 hp).1
    unfold isDigits at this
    rw [Bool.and_eq_true, List.all_eq_true] at this
    exact absurd (this.2 _ hm) (by decide)
  cases v with
  | v6 => exact key _ _ h
  | v4 =>
    unfold makeNetmask at h
    simp only at h
    split at h
    · rename_i hp; exact key _ _ hp
    · unfold prefixFromIpString at h
      split at h
      · simp at h
      · rename_i hp
        obtain ⟨_, rfl⟩ := parseV4_some hp
        exact fmtV4_no _ rfl (by decide)

/-! ## networks -/

/-- The network of all addresses agreeing with `ip` on the first `p` bits. -/
def mkNet (a : Addr) (p : Nat) : Net := ⟨a.ver, a.ip &&& a.ver.maskOf p, p⟩

theorem mkNet_valid {a : Addr} (ha : a.Valid) {p : Nat} (hp : p ≤ a.ver.width) : (mkNet a p).Valid := by
  refine ⟨hp, ?_, ?_⟩
  · exact Nat.lt_of_le_of_lt Nat.and_le_left ha
  · show (a.ip &&& _) &&& _ = _
    rw [Nat.and_assoc]; congr 1; exact Nat.and_self _

theorem mkNet_denotes {a : Addr} (ha : a.Valid) {p : Nat} (hp : p ≤ a.ver.width) (x : Addr) :
    (mkNet a p).Denotes x ↔ x.ver = a.ver ∧ x.ip / 2 ^ (a.ver.width - p) = a.ip / 2 ^ (a.ver.width - p) := by
  unfold Net.Denotes mkNet
  simp only
  rw [and_maskOf a.ver p a.ip hp ha]
  have hd : 2 ^ (a.ver.width - p) ∣ a.ip / 2 ^ (a.ver.width - p) * 2 ^ (a.ver.width - p) :=
    Nat.dvd_mul_left _ _
  rw [block_div hd]
  have := Nat.two_pow_pos (a.ver.width - p)
  constructor
  · rintro ⟨h1, h2⟩; exact ⟨h1, Nat.eq_of_mul_eq_mul_right this h2⟩
  · rintro ⟨h1, h2⟩; exact ⟨h1, by rw [h2]⟩

theorem mkNetwork_eq {a m : List Char} (ha : '/' ∉ a) (hm : '/' ∉ m) :
    mkNetwork a m = match netOfParts .v4 a m with
      | some n => .ok n
      | none => match netOfParts .v6 a m with
        | some n => .ok n
        | none => .error .value := by
  unfold mkNetwork ipNetwork netOfText
  rw [splitOn_append_sep ha, splitOn_of_not_mem hm]
  rfl

theorem mkNetwork_slash {a m : List Char} (h : '/' ∈ a ∨ '/' ∈ m) : mkNetwork a m = .error .value := by
  have h2 : ∀ v, netOfText v (a ++ '/' :: m) = none := by
    intro v
    unfold netOfText
    split
    · rename_i x hs
      have := splitOn_no_sep '/' (a ++ '/' :: m)
      rw [hs] at this
      have e := joinWith_splitOn '/' (a ++ '/' :: m)
      rw [hs] at e
      simp only [joinWith] at e
      exact absurd (by rw [e]; simp) (this x (by simp))
    · rename_i x y hs
      exfalso
      by_cases ha : '/' ∈ a
      · obtain ⟨a1, a2, rfl⟩ := List.append_of_mem ha
        -- take the first slash
        have hl : ∀ (s t : List Char), 2 ≤ (splitOn '/' (s ++ '/' :: t)).length := by
          intro s t
          induction s with
          | nil => simp only [List.nil_append, splitOn, if_true, List.length_cons]
                   have := List.length_pos_iff.2 (splitOn_ne_nil '/' t); omega
          | cons z zs ih =>
            by_cases hz : z = '/'
            · simp only [List.cons_append, splitOn, hz, if_true, List.length_cons]; omega
            · obtain ⟨p, ps, q1, q2⟩ := splitOn_cons_ne (xs := zs ++ '/' :: t) hz
              rw [List.cons_append, q2]; rw [q1] at ih; simpa using ih
        have hl3 : ∀ (s t u : List Char), 3 ≤ (splitOn '/' (s ++ '/' :: (t ++ '/' :: u))).length := by
          intro s t u
          induction s with
          | nil => simp only [List.nil_append, splitOn, if_true, List.length_cons]
                   have := hl t u; omega
          | cons z zs ih =>
            by_cases hz : z = '/'
            · simp only [List.cons_append, splitOn, hz, if_true, List.length_cons]; omega
            · obtain ⟨p, ps, q1, q2⟩ := splitOn_cons_ne (xs := zs ++ '/' :: (t ++ '/' :: u)) hz
              rw [List.cons_append, q2]; rw [q1] at ih; simpa using ih
        have := hl3 a1 a2 m
        rw [show (a1 ++ '/' :: a2) ++ '/' :: m = a1 ++ '/' :: (a2 ++ '/' :: m) by simp] at hs
        rw [hs] at this; simp at this
      · rw [splitOn_append_sep ha] at hs
        have hm : '/' ∈ m := h.resolve_left ha
        simp only [List.cons.injEq] at hs
        have e := joinWith_splitOn '/' m
        rw [hs.2] at e
        simp only [joinWith] at e
        have := splitOn_no_sep '/' m
        rw [hs.2] at this
        exact this y (by simp) (by rw [e]; exact hm)
    · rfl
  unfold mkNetwork ipNetwork
  rw [h2, h2]

theorem ipAddress_ok {s : List Char} {x : Addr} (h : ipAddress s = .ok x) :
    '/' ∉ s ∧ ((x.ver = .v4 ∧ parseV4 s = some x.ip) ∨ (x.ver = .v6 ∧ parseV4 s = none ∧ parseV6 s = some x.ip)) := by
  unfold ipAddress at h
  split at h
  · cases h
  · rename_i hs
    refine ⟨hs, ?_⟩
    split at h
    · rename_i hp; cases h; exact .inl ⟨rfl, hp⟩
    · rename_i hp
      split at h
      · rename_i hp6; cases h; exact .inr ⟨rfl, hp, hp6⟩
      · cases h

end Acltk
