import Verif.Spec.IntSpec
import Verif.Props.Port
/-!
# C65: integers are read as they are written
-/
namespace Acltk

theorem isSpace_iff {c : Char} : isSpace c = true ↔ Blank c := by
  unfold isSpace Blank
  have hb : (c == ' ') = true ↔ c.toNat = 32 := by
    rw [beq_iff_eq]
    constructor
    · rintro rfl; rfl
    · intro h
      have : Char.ofNat c.toNat = Char.ofNat 32 := by rw [h]
      rw [Char.ofNat_toNat] at this
      rw [this]
  simp only [Bool.or_eq_true, hb, Bool.and_eq_true, decide_eq_true_eq, List.mem_cons, List.not_mem_nil, or_false]
  omega

theorem dropWhile_split (p : Char → Bool) : ∀ s : List Char, ∃ a, s = a ++ s.dropWhile p ∧ ∀ c ∈ a, p c = true := by
  intro s
  induction s with
  | nil => exact ⟨[], rfl, by simp⟩
  | cons c t ih =>
    by_cases h : p c = true
    · obtain ⟨a, h1, h2⟩ := ih
      refine ⟨c :: a, ?_, ?_⟩
      · rw [List.dropWhile_cons_of_pos h, List.cons_append, ← h1]
      · intro x hx
        rcases List.mem_cons.1 hx with rfl | hx
        · exact h
        · exact h2 x hx
    · refine ⟨[], ?_, by simp⟩
      rw [List.dropWhile_cons_of_neg h]; rfl

theorem strip_split (s : List Char) :
    ∃ a b, s = a ++ strip s ++ b ∧ (∀ c ∈ a, Blank c) ∧ (∀ c ∈ b, Blank c) := by
  obtain ⟨a, h1, h2⟩ := dropWhile_split isSpace s
  obtain ⟨b, h3, h4⟩ := dropWhile_split isSpace (s.dropWhile isSpace).reverse
  refine ⟨a, b.reverse, ?_, fun c hc => isSpace_iff.1 (h2 c hc), ?_⟩
  · have := congrArg List.reverse h3
    rw [List.reverse_reverse, List.reverse_append] at this
    unfold strip
    rw [List.append_assoc, ← this, ← h1]
  · intro c hc
    exact isSpace_iff.1 (h4 c (List.mem_reverse.1 hc))

theorem dropWhile_all {p : Char → Bool} {a s : List Char} (h : ∀ c ∈ a, p c = true) :
    (a ++ s).dropWhile p = s.dropWhile p := by
  induction a with
  | nil => rfl
  | cons c t ih =>
    rw [List.cons_append, List.dropWhile_cons_of_pos (h c (by simp))]
    exact ih (fun x hx => h x (by simp [hx]))

/-- Stripping gives the middle back if it begins and ends with something else than a blank. -/
theorem strip_middle {a s b : List Char} (ha : ∀ c ∈ a, Blank c) (hb : ∀ c ∈ b, Blank c)
    (hf : ∃ c t, s = c :: t ∧ ¬ Blank c) (hl : ∃ t c, s = t ++ [c] ∧ ¬ Blank c) : strip (a ++ s ++ b) = s := by
  unfold strip
  rw [List.append_assoc, dropWhile_all (fun c hc => isSpace_iff.2 (ha c hc))]
  obtain ⟨c, t, e, h⟩ := hf
  have h1 : (s ++ b).dropWhile isSpace = s ++ b := by
    rw [e, List.cons_append, List.dropWhile_cons_of_neg (fun hh => h (isSpace_iff.1 hh))]
  rw [h1, List.reverse_append, dropWhile_all (fun c hc => isSpace_iff.2 (hb c (List.mem_reverse.1 hc)))]
  obtain ⟨t', c', e', h'⟩ := hl
  rw [e', List.reverse_append]
  show (List.dropWhile isSpace (c' :: t'.reverse)).reverse = _
  rw [List.dropWhile_cons_of_neg (fun hh => h' (isSpace_iff.1 hh))]
  simp

theorem digit_not_blank {c : Char} (h : c.isDigit = true) : ¬ Blank c := by
  intro hb
  have := isDigit_val h
  simp only [Char.isDigit, Bool.and_eq_true, decide_eq_true_eq] at h
  have e1 : 48 ≤ c.toNat := UInt32.le_iff_toNat_le.1 h.1
  simp only [Blank, List.mem_cons, List.not_mem_nil, or_false] at hb
  omega

/-- The value of digits read from the left, starting from `acc`. -/
theorem ofDigitChars_snoc (ds : List Char) (c : Char) (acc : Nat) :
    Nat.ofDigitChars 10 (ds ++ [c]) acc = 10 * Nat.ofDigitChars 10 ds acc + (c.toNat - '0'.toNat) := by
  simp [Nat.ofDigitChars, List.foldl_append]

/-- Digits of a text, the other way round: `Digits` read from the right end. -/
theorem Digits.cons {s : List Char} {k n : Nat} (h : Digits s k n) : ∀ {c : Char}, c.isDigit = true →
    ∃ m, Digits (c :: s) (k + 1) m ∧ Digits (c :: '_' :: s) (k + 1) m := by
  induction h with
  | one d hd => intro c hc; exact ⟨_, .digit [c] 1 _ d (.one c hc) hd, .underscore [c] 1 _ d (.one c hc) hd⟩
  | digit s k n d _ hd ih =>
    intro c hc
    obtain ⟨m, h1, h2⟩ := ih hc
    exact ⟨_, .digit _ _ _ d h1 hd, .digit _ _ _ d h2 hd⟩
  | underscore s k n d _ hd ih =>
    intro c hc
    obtain ⟨m, h1, h2⟩ := ih hc
    exact ⟨_, .underscore _ _ _ d h1 hd, .underscore _ _ _ d h2 hd⟩

/-- What the scan accepts, as a relation on texts read from the left. -/
theorem underscoreDigits_snoc {ds : List Char} {c : Char} (hc : c.isDigit = true) : ∀ {s : List Char},
    underscoreDigits s = some ds →
    underscoreDigits (s ++ [c]) = some (ds ++ [c]) ∧ underscoreDigits (s ++ ['_', c]) = some (ds ++ [c]) := by
  intro s
  have hcu : c ≠ '_' := by rintro rfl; revert hc; decide
  fun_induction underscoreDigits s generalizing ds with
  | case1 => intro h; cases h
  | case2 d hd =>
    intro h; cases h
    simp [underscoreDigits, hd, hc, hcu]
  | case3 d hd => intro h; cases h
  | case4 d t hd ih =>
    intro h
    rw [Option.map_eq_some_iff] at h
    obtain ⟨e, h1, rfl⟩ := h
    obtain ⟨h2, h3⟩ := ih h1
    simp only [List.cons_append, underscoreDigits, hd, if_true, h2, h3, Option.map_some]
    exact ⟨trivial, trivial⟩
  | case5 d e t hd he ih =>
    intro h
    rw [Option.map_eq_some_iff] at h
    obtain ⟨f, h1, rfl⟩ := h
    obtain ⟨h2, h3⟩ := ih h1
    rw [List.cons_append] at h2 h3
    simp only [List.cons_append, underscoreDigits, hd, if_true, he, if_false, h2, h3, Option.map_some]
    exact ⟨trivial, trivial⟩
  | case6 d e t hd => intro h; cases h

theorem digits_scan {s : List Char} {k n : Nat} (h : Digits s k n) :
    ∃ ds, underscoreDigits s = some ds ∧ ds.length = k ∧ Nat.ofDigitChars 10 ds 0 = n := by
  induction h with
  | one c hc => exact ⟨[c], by simp [underscoreDigits, hc], rfl, by simp [Nat.ofDigitChars]⟩
  | digit s k n c _ hc ih =>
    obtain ⟨ds, h1, h2, h3⟩ := ih
    exact ⟨ds ++ [c], (underscoreDigits_snoc hc h1).1, by simp [h2], by rw [ofDigitChars_snoc, h3]⟩
  | underscore s k n c _ hc ih =>
    obtain ⟨ds, h1, h2, h3⟩ := ih
    exact ⟨ds ++ [c], (underscoreDigits_snoc hc h1).2, by simp [h2], by rw [ofDigitChars_snoc, h3]⟩

theorem scan_digits : ∀ {s ds : List Char}, underscoreDigits s = some ds → ∃ k n, Digits s k n := by
  intro s
  fun_induction underscoreDigits s with
  | case1 => intro ds h; cases h
  | case2 d hd => intro ds h; exact ⟨_, _, .one d hd⟩
  | case3 d hd => intro ds h; cases h
  | case4 d t hd ih =>
    intro ds h
    rw [Option.map_eq_some_iff] at h
    obtain ⟨e, h1, rfl⟩ := h
    obtain ⟨k, n, h2⟩ := ih h1
    obtain ⟨m, -, h4⟩ := h2.cons hd
    exact ⟨_, _, h4⟩
  | case5 d e t hd he ih =>
    intro ds h
    rw [Option.map_eq_some_iff] at h
    obtain ⟨f, h1, rfl⟩ := h
    obtain ⟨k, n, h2⟩ := ih h1
    obtain ⟨m, h4, -⟩ := h2.cons hd
    exact ⟨_, _, h4⟩
  | case6 d e t hd => intro ds h; cases h

theorem Digits.first {s : List Char} {k n : Nat} (h : Digits s k n) : ∃ c t, s = c :: t ∧ c.isDigit = true := by
  induction h with
  | one c hc => exact ⟨c, [], rfl, hc⟩
  | digit s k n c _ _ ih => obtain ⟨a, t, rfl, h⟩ := ih; exact ⟨a, t ++ [c], rfl, h⟩
  | underscore s k n c _ _ ih => obtain ⟨a, t, rfl, h⟩ := ih; exact ⟨a, t ++ ['_', c], rfl, h⟩

theorem Digits.last {s : List Char} {k n : Nat} (h : Digits s k n) : ∃ t c, s = t ++ [c] ∧ c.isDigit = true := by
  cases h with
  | one c hc => exact ⟨[], c, rfl, hc⟩
  | digit s k n c _ hc => exact ⟨s, c, rfl, hc⟩
  | underscore s k n c _ hc => exact ⟨s ++ ['_'], c, by simp, hc⟩

/-- **C65.** `int()` accepts exactly the texts of integers and gives the integer they stand for. -/
theorem C65_int_text (s : List Char) (i : Int) : pyInt s = some i ↔ IntText s i := by
  constructor
  · intro h
    unfold pyInt at h
    split at h
    · cases h
    · rename_i ds hds
      split at h
      · rename_i hlen
        obtain ⟨k, n, hd⟩ := scan_digits hds
        obtain ⟨ds', h1, h2, h3⟩ := digits_scan hd
        rw [hds] at h1
        cases h1
        obtain ⟨a, b, hs, ha, hb⟩ := strip_split s
        rw [h3] at h
        rw [h2] at hlen
        generalize strip s = t at *
        subst hs
        unfold splitSign at *
        split at hd
        · simp only [if_true] at h
          cases h
          exact .minus a _ b k n ha hb hd hlen
        · simp only [Bool.false_eq_true, if_false] at h
          cases h
          exact .plus a _ b k n ha hb hd hlen
        · rename_i h4 h5
          rw [if_neg] at h
          · cases h
            exact .plain a _ b k n ha hb hd hlen
          · split
            · exact absurd rfl (h4 _)
            · simp
            · simp
      · cases h
  · intro h
    have sign : ∀ t : List Char, (∃ c r, t = c :: r ∧ c.isDigit = true) → splitSign t = (false, t) := by
      rintro t ⟨c, r, rfl, hc⟩
      unfold splitSign
      split
      · rename_i e; cases e; exact absurd hc (by decide)
      · rename_i e; cases e; exact absurd hc (by decide)
      · rfl
    cases h with
    | plain a t b k n ha hb hd hlen =>
      obtain ⟨c, r, e, hc⟩ := hd.first
      obtain ⟨r', c', e', hc'⟩ := hd.last
      obtain ⟨ds, h1, h2, h3⟩ := digits_scan hd
      unfold pyInt
      rw [strip_middle ha hb ⟨c, r, e, digit_not_blank hc⟩ ⟨r', c', e', digit_not_blank hc'⟩, sign t ⟨c, r, e, hc⟩]
      simp [h1, h2, h3, hlen]
    | plus a t b k n ha hb hd hlen =>
      obtain ⟨r', c', e', hc'⟩ := hd.last
      obtain ⟨ds, h1, h2, h3⟩ := digits_scan hd
      unfold pyInt
      rw [strip_middle ha hb ⟨'+', t, rfl, by simp [Blank]⟩ ⟨'+' :: r', c', by rw [e']; rfl, digit_not_blank hc'⟩]
      simp [splitSign, h1, h2, h3, hlen]
    | minus a t b k n ha hb hd hlen =>
      obtain ⟨r', c', e', hc'⟩ := hd.last
      obtain ⟨ds, h1, h2, h3⟩ := digits_scan hd
      unfold pyInt
      rw [strip_middle ha hb ⟨'-', t, rfl, by simp [Blank]⟩ ⟨'-' :: r', c', by rw [e']; rfl, digit_not_blank hc'⟩]
      simp [splitSign, h1, h2, h3, hlen]

/-- A text with everything. -/
theorem C65_sample : IntText " -1_00\n".toList (-100) :=
  (C65_int_text _ _).1 (by decide +kernel)

end Acltk
