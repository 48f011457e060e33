import Verif.Model.Banner
/-!
# C46: the message of a banner
-/
namespace Acltk.Banner
open Acltk

/-- The text is `msg`, then the delimiter, then `rest`, and the delimiter does not occur earlier. -/
def EndsAtFirst (d t msg rest : List Char) : Prop :=
  t = msg ++ (d ++ rest) ∧ ∀ a b, t = a ++ (d ++ b) → msg.length ≤ a.length

/-- **What C46 states** for one delimiter: the message ends at the first delimiter. -/
def MessageEndsAtFirst (d : Delim) : Prop :=
  ∀ t msg rest, EndsAtFirst d.text t msg rest → banner d t = some (msg, rest)

/-- **C46 is violated for `^C`**: a caret in front of the delimiter hides it. -/
theorem C46_violated_caret : ¬ MessageEndsAtFirst .caretC := by
  intro h
  have := h ['x', '^', '^', 'C', '\n'] ['x', '^'] ['\n'] ⟨by decide, by
    intro a b hab
    match a, hab with
    | [], hab => simp [Delim.text] at hab
    | [_], hab => simp [Delim.text] at hab
    | _ :: _ :: _, _ => simp⟩
  revert this
  decide

/-- **C46 is violated for delimiters outside ASCII.** -/
theorem C46_violated_non_ascii : ¬ MessageEndsAtFirst (.char 'é') := by
  intro h
  have := h ['x', 'é', '\n'] ['x'] ['\n'] ⟨by decide, by
    intro a b hab
    match a, hab with
    | [], hab => simp [Delim.text] at hab
    | _ :: _, _ => simp⟩
  revert this
  decide +kernel

theorem utf8_large {c : Char} (h : 128 ≤ c.toNat) : 256 ≤ fromBytesLittle (utf8 c) := by
  have hv : ¬ c.val.toNat ≤ 127 := by
    have : c.toNat = c.val.toNat := rfl
    omega
  have key : ∀ a b l, 1 ≤ b → 256 ≤ fromBytesLittle (a :: b :: l) := by
    intro a b l hb
    simp only [fromBytesLittle]
    omega
  unfold utf8 String.utf8EncodeChar
  simp only [hv, if_false]
  have e : ∀ k : Nat, (k % 64).toUInt8.toNat + 128 = k % 64 + 128 := by
    intro k
    have : k % 64 < 64 := Nat.mod_lt _ (by decide)
    simp; omega
  split
  · apply key
    simp; omega
  · split
    · apply key
      simp; omega
    · apply key
      simp; omega

theorem literals_many {n : Nat} (h : 256 ≤ n) : 2 ≤ (regexLiterals n).length := by
  have hlen : 3 ≤ (hexText n).length := by
    have : ¬ (hexText n).length ≤ 2 := by
      unfold hexText
      intro hl
      rw [Nat.length_toDigits_le_iff (by decide) (by decide)] at hl
      omega
    omega
  unfold regexLiterals hex02
  rw [if_neg (by omega)]
  split
  · rename_i a b rest e
    rw [e] at hlen
    simp at hlen ⊢
    omega
  · omega

/-- **C46 is violated for every delimiter outside ASCII**: a message is not read (here the empty one). -/
theorem C46_violated_non_ascii_all (c : Char) (h : 128 ≤ c.toNat) : ¬ MessageEndsAtFirst (.char c) := by
  intro hm
  have := hm [c, '\n'] [] ['\n'] ⟨rfl, by intros; simp⟩
  have h2 := literals_many (utf8_large h)
  simp only [banner, Option.map_eq_some_iff, Prod.mk.injEq] at this
  obtain ⟨rest, h3, h4, rfl⟩ := this
  generalize regexLiterals (fromBytesLittle (utf8 c)) = lits at *
  unfold stripPrefix at h3
  split at h3
  · rename_i hp
    have hr : (scanUntil lits [c, '\n']).2 = [c, '\n'] := by
      have split : ∀ t, (scanUntil lits t).1 ++ (scanUntil lits t).2 = t := by
        intro t
        induction t with
        | nil => rfl
        | cons a t ih =>
          simp only [scanUntil]
          split
          · rfl
          · simp only [List.cons_append, ih]
      have := split [c, '\n']
      rw [h4] at this
      simpa using this
    rw [hr] at h3
    have := congrArg List.length (Option.some.inj h3)
    simp at this
    omega
  · cases h3

/-! ## the parts that hold -/

theorem scanUntil_first {c : Char} {msg rest : List Char} (h : c ∉ msg) :
    scanUntil [c] (msg ++ c :: rest) = (msg, c :: rest) := by
  induction msg with
  | nil => simp [scanUntil]
  | cons a t ih =>
    simp only [List.mem_cons, not_or] at h
    simp [scanUntil, Ne.symm h.1, ih h.2]

theorem scanUntil_none {c : Char} {t : List Char} (h : c ∉ t) : scanUntil [c] t = (t, []) := by
  induction t with
  | nil => rfl
  | cons a t ih =>
    simp only [List.mem_cons, not_or] at h
    simp [scanUntil, Ne.symm h.1, ih h.2]

theorem regexLiterals_small : ∀ n : Fin 128, regexLiterals n.val = [Char.ofNat n.val] := by
  decide +kernel

theorem utf8_ascii {c : Char} (h : c.toNat < 128) : utf8 c = [c.toNat] := by
  have hv : c.val.toNat ≤ 127 := by
    have : c.toNat = c.val.toNat := rfl
    omega
  unfold utf8 String.utf8EncodeChar
  simp only [hv, if_true, List.map_cons, List.map_nil]
  have : c.toNat = c.val.toNat := rfl
  simp
  omega

theorem literals_ascii {c : Char} (h : c.toNat < 128) :
    regexLiterals (fromBytesLittle (utf8 c)) = [c] := by
  rw [utf8_ascii h]
  have : fromBytesLittle [c.toNat] = c.toNat := by simp [fromBytesLittle]
  rw [this]
  have := regexLiterals_small ⟨c.toNat, h⟩
  simp only at this
  rw [this, Char.ofNat_toNat]

theorem endsAtFirst_char {c : Char} {t msg rest : List Char} (h : EndsAtFirst [c] t msg rest) :
    t = msg ++ c :: rest ∧ c ∉ msg := by
  refine ⟨h.1, ?_⟩
  intro hm
  obtain ⟨a, b, hab⟩ := List.append_of_mem hm
  have := h.2 a (b ++ c :: rest) (by rw [h.1, hab]; simp)
  rw [hab] at this
  simp at this; omega

/-- **C46, ASCII delimiters.** The message ends at the first delimiter; without a delimiter the
banner does not parse. -/
theorem C46_ascii_partial (c : Char) (h : c.toNat < 128) :
    MessageEndsAtFirst (.char c) ∧ ∀ t, c ∉ t → banner (.char c) t = none := by
  constructor
  · intro t msg rest he
    obtain ⟨rfl, hm⟩ := endsAtFirst_char he
    simp only [banner, literals_ascii h, scanUntil_first hm]
    simp [stripPrefix]
  · intro t ht
    simp only [banner, literals_ascii h, scanUntil_none ht]
    rfl

/-- `n` carets. -/
def carets (n : Nat) : List Char := List.replicate n '^'

theorem scanCaret_other {c : Char} (hc : c ≠ '^') (t : List Char) :
    scanCaret (c :: t) = (c :: (scanCaret t).1, (scanCaret t).2) := by
  rw [scanCaret]
  · intro h; exact absurd h hc
  · intro d u h; exact absurd h hc

theorem scanCaret_pair {d : Char} (hd : d ≠ 'C') (t : List Char) :
    scanCaret ('^' :: d :: t) = ('^' :: d :: (scanCaret t).1, (scanCaret t).2) := by
  simp [scanCaret, hd]

theorem scanCaret_stop (t : List Char) : scanCaret ('^' :: 'C' :: t) = ([], '^' :: 'C' :: t) := by
  simp [scanCaret]

/-- An odd run of carets stops the scan at its last caret, an even one lets it pass the C. -/
theorem scanCaret_run (k : Nat) (t : List Char) :
    scanCaret (carets (2 * k + 1) ++ 'C' :: t) = (carets (2 * k), '^' :: 'C' :: t) ∧
    scanCaret (carets (2 * k) ++ 'C' :: t) =
      (carets (2 * k) ++ 'C' :: (scanCaret t).1, (scanCaret t).2) := by
  induction k with
  | zero =>
    constructor
    · show scanCaret ('^' :: 'C' :: t) = _
      rw [scanCaret_stop]; rfl
    · show scanCaret ('C' :: t) = _
      rw [scanCaret_other (by decide)]; rfl
  | succ k ih =>
    constructor
    · have e : carets (2 * (k + 1) + 1) ++ 'C' :: t = '^' :: '^' :: (carets (2 * k + 1) ++ 'C' :: t) := rfl
      rw [e, scanCaret_pair (by decide), ih.1]
      rfl
    · have e : carets (2 * (k + 1)) ++ 'C' :: t = '^' :: '^' :: (carets (2 * k) ++ 'C' :: t) := rfl
      rw [e, scanCaret_pair (by decide), ih.2]
      rfl

/-- The text does not contain `^C`. -/
def NoCaretC (t : List Char) : Prop := ∀ a b, t ≠ a ++ '^' :: 'C' :: b

theorem NoCaretC.tail {c : Char} {t : List Char} (h : NoCaretC (c :: t)) : NoCaretC t := by
  intro a b e; exact h (c :: a) b (by rw [e]; rfl)

/-- A text without `^C` that does not end in a caret is passed completely, whatever follows. -/
theorem scanCaret_pass : ∀ (n : Nat) (pre t : List Char), pre.length ≤ n → NoCaretC pre →
    pre.getLast? ≠ some '^' →
    scanCaret (pre ++ t) = (pre ++ (scanCaret t).1, (scanCaret t).2) := by
  intro n
  induction n with
  | zero =>
    intro pre t hl _ _
    have : pre = [] := List.eq_nil_of_length_eq_zero (by omega)
    subst this; rfl
  | succ n ih =>
    intro pre t hl hno hlast
    match pre, hl, hno, hlast with
    | [], _, _, _ => rfl
    | c :: u, hl, hno, hlast =>
      by_cases hc : c = '^'
      · subst hc
        match u, hl, hno, hlast with
        | [], _, _, hlast => simp at hlast
        | d :: u', hl, hno, hlast =>
          have hd : d ≠ 'C' := by
            rintro rfl; exact hno [] u' rfl
          have hl' : u'.length ≤ n := by simp at hl; omega
          by_cases hu : u' = []
          · subst hu
            have e : ('^' :: d :: ([] : List Char)) ++ t = '^' :: d :: t := rfl
            rw [e, scanCaret_pair hd]; rfl
          · have hlast' : u'.getLast? ≠ some '^' := by
              intro e; apply hlast
              rw [List.getLast?_cons_cons]
              cases u' with
              | nil => exact absurd rfl hu
              | cons x y => rw [List.getLast?_cons_cons]; exact e
            have := ih u' t hl' (hno.tail.tail) hlast'
            have e : ('^' :: d :: u') ++ t = '^' :: d :: (u' ++ t) := rfl
            rw [e, scanCaret_pair hd, this]; rfl
      · have hl' : u.length ≤ n := by simp at hl; omega
        have e : (c :: u) ++ t = c :: (u ++ t) := rfl
        by_cases hu : u = []
        · subst hu
          rw [e, scanCaret_other hc]; rfl
        · have hlast' : u.getLast? ≠ some '^' := by
            cases u with
            | nil => exact absurd rfl hu
            | cons x y => rw [List.getLast?_cons_cons] at hlast; exact hlast
          rw [e, scanCaret_other hc, ih u t hl' hno.tail hlast']; rfl

/-- **C46, `^C`.** Let the first `^C` of the text be the end of a run of exactly `n` carets followed
by C.  If `n` is odd, the message ends there; if `n` is even, the delimiter is overlooked: every
message the banner yields is longer. -/
theorem C46_caret_partial (pre rest : List Char) (n : Nat) (hno : NoCaretC pre)
    (hlast : pre.getLast? ≠ some '^') :
    (n % 2 = 1 → banner .caretC (pre ++ (carets n ++ 'C' :: rest)) =
      some (pre ++ carets (n - 1), rest)) ∧
    (0 < n → n % 2 = 0 → ∀ msg rest', banner .caretC (pre ++ (carets n ++ 'C' :: rest)) = some (msg, rest') →
      pre.length + n < msg.length) := by
  constructor
  · intro hodd
    obtain ⟨k, rfl⟩ : ∃ k, n = 2 * k + 1 := ⟨n / 2, by omega⟩
    simp only [banner]
    rw [scanCaret_pass pre.length pre _ (Nat.le_refl _) hno hlast, (scanCaret_run k rest).1]
    simp [stripPrefix]
  · intro _ heven msg rest' hb
    obtain ⟨k, rfl⟩ : ∃ k, n = 2 * k := ⟨n / 2, by omega⟩
    simp only [banner] at hb
    rw [scanCaret_pass pre.length pre _ (Nat.le_refl _) hno hlast, (scanCaret_run k rest).2] at hb
    simp only [Option.map_eq_some_iff, Prod.mk.injEq] at hb
    obtain ⟨_, _, hmsg, _⟩ := hb
    rw [← hmsg]
    simp [carets]

/-- Both cases of the `^C` theorem and an ASCII delimiter, on texts. -/
theorem C46_sample :
    banner .caretC "hello^^x\n^C\n".toList = some ("hello^^x\n".toList, "\n".toList) ∧
    banner .caretC "hello^^C\n".toList = none ∧
    banner (.char '#') "unauthorized # access".toList = some ("unauthorized ".toList, " access".toList) := by
  decide +kernel

end Acltk.Banner
