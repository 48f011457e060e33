import Verif.Lemmas.Peg
import Verif.Props.AddrText
/-!
# The patterns of addresses
-/
namespace Acltk.Peg
open Acltk Acltk.Lookup

set_option linter.unusedSimpArgs false

theorem digit_cases {c : Char} (h : c.isDigit = true) : c = '0' ∨ c = '1' ∨ c = '2' ∨ c = '3' ∨ c = '4' ∨ c = '5' ∨
    c = '6' ∨ c = '7' ∨ c = '8' ∨ c = '9' := by
  have hn : 48 ≤ c.toNat ∧ c.toNat ≤ 57 := by
    simp [Char.isDigit, UInt32.le_iff_toNat_le] at h
    exact h
  have : c.toNat = 48 ∨ c.toNat = 49 ∨ c.toNat = 50 ∨ c.toNat = 51 ∨ c.toNat = 52 ∨ c.toNat = 53 ∨ c.toNat = 54 ∨
    c.toNat = 55 ∨ c.toNat = 56 ∨ c.toNat = 57 := by omega
  simpa [← Char.toNat_inj] using this

theorem rng_not_digit {c a b : Char} (h : c.isDigit = false) (ha : '0' ≤ a) (hb : b ≤ '9') :
    (decide (a ≤ c) && decide (c ≤ b)) = false := by
  rw [Bool.and_eq_false_iff]
  by_cases h1 : a ≤ c
  · right
    simp only [decide_eq_false_iff_not]
    intro h2
    have : c.isDigit = true := by
      have e1 : '0' ≤ c := Std.le_trans ha h1
      have e2 : c ≤ '9' := Std.le_trans h2 hb
      simp only [Char.isDigit, Bool.and_eq_true, decide_eq_true_eq]
      exact ⟨e1, e2⟩
    rw [h] at this; cases this
  · left; simpa using h1

theorem chr_not_digit {c a : Char} (h : c.isDigit = false) (ha : a.isDigit = true) : (c == a) = false := by
  rw [beq_eq_false_iff_ne]; rintro rfl; rw [h] at ha; cases ha

/-- The rests of the octet pattern in front of something that is no digit: first the one behind all
digits. -/
theorem octet_run (o : Nat) (ho : o < 256) (s : Char) (t : Text) (hs : s.isDigit = false) :
    ∃ L, octetRe.run (decText o ++ s :: t) = (s :: t) :: L ∧ ∀ x ∈ L, ∃ d u, x = d :: u ∧ d.isDigit = true := by
  have h1 := fun a b h2 h3 => rng_not_digit (c := s) (a := a) (b := b) hs h2 h3
  have r09 := h1 '0' '9' (by decide) (by decide)
  have r05 := h1 '0' '5' (by decide) (by decide)
  have r04 := h1 '0' '4' (by decide) (by decide)
  have c1 := chr_not_digit (c := s) (a := '1') hs (by decide)
  have c2 := chr_not_digit (c := s) (a := '2') hs (by decide)
  have c5 := chr_not_digit (c := s) (a := '5') hs (by decide)
  have hcases : ∀ o < 256, (∃ a, decText o = [a] ∧ a.isDigit = true) ∨
      (∃ a b, decText o = [a, b] ∧ a.isDigit = true ∧ b.isDigit = true) ∨
      (∃ a b, decText o = ['1', a, b] ∧ a.isDigit = true ∧ b.isDigit = true) ∨
      (∃ a b, decText o = ['2', a, b] ∧ a ∈ ['0', '1', '2', '3', '4'] ∧ b.isDigit = true) ∨
      (∃ b, decText o = ['2', '5', b] ∧ b ∈ ['0', '1', '2', '3', '4', '5']) := by
    intro o ho
    have : ∀ o : Fin 256, (match decText o.1 with
      | [a] => a.isDigit
      | [a, b] => a.isDigit && b.isDigit
      | [x, a, b] => (x == '1' && a.isDigit && b.isDigit) || (x == '2' && ['0', '1', '2', '3', '4'].elem a && b.isDigit)
        || (x == '2' && a == '5' && ['0', '1', '2', '3', '4', '5'].elem b)
      | _ => false) = true := by decide +kernel
    have := this ⟨o, ho⟩
    simp only at this
    split at this
    · rename_i a h; exact Or.inl ⟨a, h, this⟩
    · rename_i a b h; simp at this; exact Or.inr (Or.inl ⟨a, b, h, this.1, this.2⟩)
    · rename_i x a b h
      simp only [Bool.or_eq_true, Bool.and_eq_true, beq_iff_eq, List.elem_eq_mem, decide_eq_true_eq] at this
      rcases this with (⟨⟨rfl, h1⟩, h2⟩ | ⟨⟨rfl, h1⟩, h2⟩) | ⟨⟨rfl, rfl⟩, h2⟩
      · exact Or.inr (Or.inr (Or.inl ⟨a, b, h, h1, h2⟩))
      · exact Or.inr (Or.inr (Or.inr (Or.inl ⟨a, b, h, h1, h2⟩)))
      · exact Or.inr (Or.inr (Or.inr (Or.inr ⟨b, h, h2⟩)))
    · cases this
  have hd : ∀ a : Char, a.isDigit = true → (decide ('0' ≤ a) && decide (a ≤ '9')) = true := by
    intro a ha
    rcases digit_cases ha with rfl | rfl | rfl | rfl | rfl | rfl | rfl | rfl | rfl | rfl <;> decide
  rcases hcases o ho with ⟨a, h, ha⟩ | ⟨a, b, h, ha, hb⟩ | ⟨a, b, h, ha, hb⟩ | ⟨a, b, h, ha, hb⟩ | ⟨b, h, hb⟩
  · rw [h]
    rcases digit_cases ha with rfl | rfl | rfl | rfl | rfl | rfl | rfl | rfl | rfl | rfl <;>
      simp [octetRe, Re.run, Re.optional, Re.chr, Re.rng, r09, r05, r04, c1, c2, c5]
  · rw [h]
    have hb' := hd b hb
    rcases digit_cases ha with rfl | rfl | rfl | rfl | rfl | rfl | rfl | rfl | rfl | rfl <;>
    rcases digit_cases hb with rfl | rfl | rfl | rfl | rfl | rfl | rfl | rfl | rfl | rfl <;>
      simp [octetRe, Re.run, Re.optional, Re.chr, Re.rng, r09, r05, r04, c1, c2, c5]
  · rw [h]
    rcases digit_cases ha with rfl | rfl | rfl | rfl | rfl | rfl | rfl | rfl | rfl | rfl <;>
    rcases digit_cases hb with rfl | rfl | rfl | rfl | rfl | rfl | rfl | rfl | rfl | rfl <;>
      simp [octetRe, Re.run, Re.optional, Re.chr, Re.rng, r09, r05, r04, c1, c2, c5]
  · rw [h]
    simp only [List.mem_cons, List.not_mem_nil, or_false] at ha
    rcases ha with rfl | rfl | rfl | rfl | rfl <;>
    rcases digit_cases hb with rfl | rfl | rfl | rfl | rfl | rfl | rfl | rfl | rfl | rfl <;>
      simp [octetRe, Re.run, Re.optional, Re.chr, Re.rng, r09, r05, r04, c1, c2, c5]
  · rw [h]
    simp only [List.mem_cons, List.not_mem_nil, or_false] at hb
    rcases hb with rfl | rfl | rfl | rfl | rfl | rfl <;>
      simp [octetRe, Re.run, Re.optional, Re.chr, Re.rng, r09, r05, r04, c1, c2, c5]

end Acltk.Peg
