import Verif.Model.Text
import Verif.Model.Addr
import Verif.Lemmas.Bits
namespace Acltk

theorem splitOn_ne_nil (c : Char) (s : List Char) : splitOn c s ≠ [] := by
  cases s with
  | nil => simp [splitOn]
  | cons x xs =>
    unfold splitOn
    split
    · simp
    · split <;> simp

theorem splitOn_cons_ne {c x : Char} {xs : List Char} (h : x ≠ c) :
    ∃ p ps, splitOn c xs = p :: ps ∧ splitOn c (x :: xs) = (x :: p) :: ps := by
  have hn := splitOn_ne_nil c xs
  cases hs : splitOn c xs with
  | nil => exact absurd hs hn
  | cons p ps => exact ⟨p, ps, rfl, by simp [splitOn, h, hs]⟩

theorem joinWith_splitOn (c : Char) (s : List Char) : joinWith c (splitOn c s) = s := by
  induction s with
  | nil => rfl
  | cons x xs ih =>
    by_cases h : x = c
    · subst h
      have hn := splitOn_ne_nil x xs
      simp only [splitOn, if_true]
      cases hs : splitOn x xs with
      | nil => exact absurd hs hn
      | cons p ps => rw [hs] at ih; simp [joinWith, ih]
    · obtain ⟨p, ps, h1, h2⟩ := splitOn_cons_ne (xs := xs) h
      rw [h2]; rw [h1] at ih
      cases ps with
      | nil => simpa [joinWith] using ih
      | cons q qs => simpa [joinWith] using ih

theorem splitOn_no_sep (c : Char) (s : List Char) : ∀ p ∈ splitOn c s, c ∉ p := by
  induction s with
  | nil => simp [splitOn]
  | cons x xs ih =>
    by_cases h : x = c
    · subst h
      simp only [splitOn, if_true]
      intro p hp
      rcases List.mem_cons.1 hp with rfl | hp
      · simp
      · exact ih p hp
    · obtain ⟨p, ps, h1, h2⟩ := splitOn_cons_ne (xs := xs) h
      rw [h2]; rw [h1] at ih
      intro q hq
      rcases List.mem_cons.1 hq with rfl | hq
      · simp only [List.mem_cons, not_or]
        exact ⟨fun e => h e.symm, ih p (by simp)⟩
      · exact ih q (by simp [hq])

theorem splitOn_of_not_mem {c : Char} {s : List Char} (h : c ∉ s) : splitOn c s = [s] := by
  induction s with
  | nil => rfl
  | cons x xs ih =>
    have hx : x ≠ c := fun e => h (by simp [e])
    have := ih (fun hm => h (by simp [hm]))
    simp [splitOn, hx, this]

theorem splitOn_append_sep {c : Char} {s : List Char} (h : c ∉ s) (t : List Char) :
    splitOn c (s ++ c :: t) = s :: splitOn c t := by
  induction s with
  | nil => simp [splitOn]
  | cons x xs ih =>
    have hx : x ≠ c := fun e => h (by simp [e])
    have := ih (fun hm => h (by simp [hm]))
    simp [splitOn, hx, this]

theorem splitOn_joinWith {c : Char} {ps : List (List Char)} (hn : ps ≠ []) (h : ∀ p ∈ ps, c ∉ p) :
    splitOn c (joinWith c ps) = ps := by
  induction ps with
  | nil => exact absurd rfl hn
  | cons p ps ih =>
    cases ps with
    | nil => simpa [joinWith] using splitOn_of_not_mem (h p (by simp))
    | cons q qs =>
      rw [joinWith, splitOn_append_sep (h p (by simp)), ih (by simp) (fun r hr => h r (by simp [hr]))]

theorem splitOn_mem_subset {c : Char} {s p : List Char} (hp : p ∈ splitOn c s) : ∀ x ∈ p, x ∈ s := by
  induction s generalizing p with
  | nil => simp [splitOn] at hp; subst hp; simp
  | cons y ys ih =>
    by_cases h : y = c
    · simp only [splitOn, h, if_true, List.mem_cons] at hp
      rcases hp with rfl | hp
      · simp
      · intro x hx; simp [ih hp x hx]
    · obtain ⟨q, qs, h1, h2⟩ := splitOn_cons_ne (xs := ys) h
      rw [h2, List.mem_cons] at hp
      rcases hp with rfl | hp
      · intro x hx
        rcases List.mem_cons.1 hx with rfl | hx
        · simp
        · simp [ih (p := q) (by simp [h1]) x hx]
      · intro x hx
        simp [ih (p := p) (by simp [h1, hp]) x hx]

/-! ## decimal numbers -/

theorem isDigit_val {c : Char} (h : c.isDigit = true) :
    ∃ k, k < 10 ∧ c = Nat.digitChar k ∧ c.toNat - '0'.toNat = k := by
  have h1 : 48 ≤ c.toNat ∧ c.toNat ≤ 57 := by
    simp only [Char.isDigit, Bool.and_eq_true, decide_eq_true_eq, UInt32.le_iff_toNat_le] at h
    exact h
  refine ⟨c.toNat - 48, by omega, ?_, rfl⟩
  have hc : c = Char.ofNat c.toNat := (Char.ofNat_toNat c).symm
  have : ∀ n, 48 ≤ n → n ≤ 57 → Char.ofNat n = Nat.digitChar (n - 48) := by
    intro n h1 h2
    have : n = 48 ∨ n = 49 ∨ n = 50 ∨ n = 51 ∨ n = 52 ∨ n = 53 ∨ n = 54 ∨ n = 55 ∨ n = 56 ∨ n = 57 := by
      omega
    rcases this with rfl|rfl|rfl|rfl|rfl|rfl|rfl|rfl|rfl|rfl <;> rfl
  exact hc.trans (this _ h1.1 h1.2)

theorem decText_ne_nil (n : Nat) : decText n ≠ [] := Nat.toDigits_ne_nil

theorem isDigits_decText (n : Nat) : isDigits (decText n) = true := by
  unfold isDigits
  rw [Bool.and_eq_true]
  refine ⟨?_, ?_⟩
  · simp [decText_ne_nil]
  · rw [List.all_eq_true]
    intro c hc
    exact Nat.isDigit_of_mem_toDigits (by omega) (by omega) hc

theorem ofDigitChars_decText (n : Nat) : Nat.ofDigitChars 10 (decText n) 0 = n :=
  Nat.ofDigitChars_ten_toDigits

theorem ofDigitChars_pos_of_head {c : Char} {t : List Char} (hc : c.isDigit = true) (h0 : c ≠ '0') :
    0 < Nat.ofDigitChars 10 (c :: t) 0 := by
  obtain ⟨k, hk, rfl, hv⟩ := isDigit_val hc
  rw [Nat.ofDigitChars_cons_digitChar_of_lt_ten hk, Nat.ofDigitChars_eq_ofDigitChars_zero]
  have hk0 : 0 < k := by
    rcases Nat.eq_zero_or_pos k with rfl | h
    · exact absurd rfl h0
    · exact h
  have : 0 < 10 ^ t.length * (10 * 0 + k) := Nat.mul_pos (Nat.pow_pos (by omega)) (by omega)
  omega

theorem eq_nil_or_snoc {α : Type} (s : List α) : s = [] ∨ ∃ t c, s = t ++ [c] := by
  rcases List.eq_nil_or_concat s with h | ⟨t, c, h⟩
  · exact Or.inl h
  · exact Or.inr ⟨t, c, by simpa using h⟩

/-- A digit text without superfluous leading zero is the canonical text of its value. -/
theorem decText_ofDigitChars {s : List Char} (hd : isDigits s = true)
    (hz : ¬ (s ≠ ['0'] ∧ s.head? = some '0')) : decText (Nat.ofDigitChars 10 s 0) = s := by
  unfold isDigits at hd
  rw [Bool.and_eq_true] at hd
  obtain ⟨hne, hall⟩ := hd
  rw [List.all_eq_true] at hall
  rcases eq_nil_or_snoc s with rfl | ⟨t, c, rfl⟩
  · simp at hne
  · have hc := hall c (by simp)
    obtain ⟨k, hk, hck, hv⟩ := isDigit_val hc
    cases t with
    | nil =>
      subst hck
      rw [List.nil_append, Nat.ofDigitChars_cons_digitChar_of_lt_ten hk, Nat.ofDigitChars_nil]
      simp only [Nat.mul_zero, Nat.zero_add]
      exact Nat.toDigits_of_lt_base hk
    | cons d t =>
      have hd0 : d ≠ '0' := by
        intro e; apply hz; subst e; simp
      have hdd := hall d (by simp)
      have ih : decText (Nat.ofDigitChars 10 (d :: t) 0) = d :: t :=
        decText_ofDigitChars (s := d :: t)
          (by unfold isDigits; rw [Bool.and_eq_true, List.all_eq_true]
              exact ⟨by simp, fun x hx => hall x (List.mem_append_left _ hx)⟩)
          (by intro h; simp at h; exact hd0 h.2)
      have hpos := ofDigitChars_pos_of_head (t := t) hdd hd0
      rw [Nat.ofDigitChars_append]
      subst hck
      rw [Nat.ofDigitChars_cons_digitChar_of_lt_ten hk, Nat.ofDigitChars_nil]
      unfold decText
      rw [← Nat.toDigits_append_toDigits (by omega) hpos hk]
      unfold decText at ih
      rw [ih, Nat.toDigits_of_lt_base hk]
termination_by s.length
decreasing_by simp_all

theorem decText_inj {m n : Nat} (h : decText m = decText n) : m = n := by
  rw [← ofDigitChars_decText m, h, ofDigitChars_decText]

theorem decText_length_le {n k : Nat} (hk : 0 < k) : (decText n).length ≤ k ↔ n < 10 ^ k :=
  Nat.length_toDigits_le_iff (by omega) hk

theorem ofDigitChars_lt {t : List Char} (h : ∀ c ∈ t, c.isDigit = true) (init : Nat) :
    Nat.ofDigitChars 10 t init < (init + 1) * 10 ^ t.length := by
  induction t generalizing init with
  | nil => simp
  | cons c t ih =>
    obtain ⟨k, hk, rfl, _⟩ := isDigit_val (h c (by simp))
    rw [Nat.ofDigitChars_cons_digitChar_of_lt_ten hk]
    have := ih (fun x hx => h x (by simp [hx])) (10 * init + k)
    refine Nat.lt_of_lt_of_le this ?_
    simp only [List.length_cons, Nat.pow_succ]
    rw [Nat.mul_comm (10 ^ t.length) 10, ← Nat.mul_assoc]
    exact Nat.mul_le_mul_right _ (by omega)

theorem decText_no_leading_zero (n : Nat) : ¬ (decText n ≠ ['0'] ∧ (decText n).head? = some '0') := by
  rintro ⟨h1, h2⟩
  -- drop the leading zeros: the value stays, the length shrinks
  cases hd : decText n with
  | nil => exact decText_ne_nil n hd
  | cons c t =>
    rw [hd] at h1 h2
    simp at h2; subst h2
    have htne : t ≠ [] := fun e => h1 (by rw [e])
    have hv : Nat.ofDigitChars 10 t 0 = n := by
      have := ofDigitChars_decText n
      rw [hd, Nat.ofDigitChars_cons] at this
      simpa using this
    have hdig : ∀ c ∈ t, c.isDigit = true := by
      intro c hc
      have := isDigits_decText n
      unfold isDigits at this
      rw [Bool.and_eq_true, List.all_eq_true] at this
      exact this.2 c (by rw [hd]; simp [hc])
    -- value of t is below 10^t.length, so the canonical text is at most that long
    have hlt : Nat.ofDigitChars 10 t 0 < 10 ^ t.length := by
      have := ofDigitChars_lt hdig 0
      simpa using this
    rw [hv] at hlt
    have hlen := (decText_length_le (n := n) (k := t.length)
      (List.length_pos_iff.2 htne)).2 hlt
    rw [hd] at hlen
    simp at hlen
    omega

/-! ## trailing zero bits -/

theorem exists_odd_part (n : Nat) (h : n ≠ 0) : ∃ k m, n = 2 ^ k * (2 * m + 1) := by
  induction n using Nat.strongRecOn with
  | _ n ih =>
    have : ∃ m, n = 2 * m ∨ n = 2 * m + 1 := ⟨n / 2, by omega⟩
    obtain ⟨m, rfl | rfl⟩ := this
    · obtain ⟨k, m', hm⟩ := ih m (by omega) (by omega)
      refine ⟨k + 1, m', ?_⟩
      rw [hm, Nat.pow_succ]; simp [Nat.mul_comm, Nat.mul_left_comm]
    · exact ⟨0, m, by simp⟩

theorem andNot_pred {n k m : Nat} (h : n = 2 ^ k * (2 * m + 1)) : andNot (n - 1) n = 2 ^ k - 1 := by
  have hp := Nat.two_pow_pos k
  have e1 : n - 1 = 2 ^ k * (2 * m) + (2 ^ k - 1) := by
    rw [h, Nat.mul_add]; omega
  have e2 : n = 2 ^ k * (2 * m + 1) + 0 := h
  apply Nat.eq_of_testBit_eq; intro i
  rw [testBit_andNot, e1, Nat.testBit_two_pow_mul_add _ (by omega)]
  conv => lhs; rw [e2]
  rw [Nat.testBit_two_pow_mul_add _ hp, Nat.testBit_two_pow_sub_one]
  by_cases hi : i < k
  · simp [hi]
  · simp only [hi, if_false, decide_false]
    cases hj : i - k with
    | zero => simp
    | succ j =>
      have e3 : 2 * m / 2 = m := by omega
      have e4 : (2 * m + 1) / 2 = m := by omega
      rw [Nat.testBit_succ, Nat.testBit_succ, e3, e4]
      cases m.testBit j <;> rfl

theorem log2_two_pow_sub_one (k : Nat) : bitLength (2 ^ k - 1) = k := by
  unfold bitLength
  cases k with
  | zero => simp
  | succ k =>
    have hp := Nat.two_pow_pos k
    have hne : 2 ^ (k + 1) - 1 ≠ 0 := by rw [Nat.pow_succ]; omega
    rw [if_neg hne]
    have : (2 ^ (k + 1) - 1).log2 = k := by
      rw [Nat.log2_eq_iff hne]
      rw [Nat.pow_succ]; omega
    omega

end Acltk
