import Verif.Lemmas.Summarize
import Verif.Spec.RangeSpec
namespace Acltk

theorem countRightZeros_max {n bits j : Nat} (hj : j ≤ bits) (hd : 2 ^ j ∣ n) : j ≤ countRightZeros n bits := by
  by_cases h : n = 0
  · subst h; unfold countRightZeros; simpa using hj
  · obtain ⟨k, m, hk⟩ := exists_odd_part n h
    rw [countRightZeros_odd hk]
    refine Nat.le_min.2 ⟨hj, ?_⟩
    apply Nat.le_of_not_lt
    intro hlt
    have h1 : 2 ^ (k + 1) ∣ n := Nat.dvd_trans (Nat.pow_dvd_pow 2 hlt) hd
    rw [hk, Nat.pow_succ] at h1
    have := Nat.dvd_of_mul_dvd_mul_left (Nat.two_pow_pos k) h1
    omega

theorem stepBits_max (v : Ver) {first last j : Nat} (hle : first ≤ last) (hj : j ≤ v.width) (hd : 2 ^ j ∣ first)
    (hf : first + 2 ^ j ≤ last + 1) : j ≤ stepBits v first last := by
  unfold stepBits
  refine Nat.le_min.2 ⟨countRightZeros_max hj hd, ?_⟩
  unfold bitLength
  rw [if_neg (by omega)]
  have : 2 ^ j ≤ last - first + 1 := by omega
  have := (Nat.le_log2 (by omega)).2 this
  omega

/-- `summarize_address_range` gives the blocks. -/
theorem summarizeFrom_blocks {v : Ver} {a b : Nat} {l : List Net} (h : RangeBlocks v a b l) (hb : b < 2 ^ v.width) :
    summarizeFrom v a b = .ok l := by
  induction h with
  | nil a b hlt => unfold summarizeFrom; rw [if_neg (by omega)]
  | cons a b k l hle hk hd hf hmax hrest ih =>
    have hkk : stepBits v a b = k := by
      apply Nat.le_antisymm
      · exact hmax _ (stepBits_le_width v a b) (dvd_stepBits v a b) (stepBits_fits v hle)
      · exact stepBits_max v hle hk hd hf
    have hval := step_valid v (last := b) (Nat.lt_of_le_of_lt hle hb)
    unfold summarizeFrom
    simp only [hle, if_true]
    rw [if_neg (by simpa using hval.2.2), hkk]
    split
    · rename_i hall
      have hall' : a + 2 ^ k = b + 1 := by
        unfold Ver.allOnes at hall
        have := Nat.two_pow_pos v.width
        have := Nat.two_pow_pos k
        omega
      cases hrest with
      | nil => rfl
      | cons => omega
    · rw [ih hb]

theorem rangeBlocks_valid {v : Ver} {a b : Nat} {l : List Net} (h : RangeBlocks v a b l) (hb : b < 2 ^ v.width) :
    ∀ n ∈ l, n.Valid := by
  have := summarizeFrom_blocks h hb
  by_cases hle : a ≤ b + 1
  · obtain ⟨l', h1, h2, -, -⟩ := summarizeFrom_ok v b hb _ a (Nat.le_refl _) hle
    rw [this] at h1
    cases h1
    exact fun n hn => (h2 n hn).1
  · cases h with
    | nil => simp
    | cons => omega

/-- There are blocks for every range. -/
theorem rangeBlocks_exists (v : Ver) (a b : Nat) : ∃ l, RangeBlocks v a b l := by
  generalize hd : b + 1 - a = d
  induction d using Nat.strongRecOn generalizing a with
  | ind d ih =>
    by_cases hle : a ≤ b
    · have h1 := stepBits_fits v hle
      have hpos := Nat.two_pow_pos (stepBits v a b)
      obtain ⟨l, hl⟩ := ih _ (by omega) (a + 2 ^ stepBits v a b) rfl
      exact ⟨_, .cons a b (stepBits v a b) l hle (stepBits_le_width v a b) (dvd_stepBits v a b) h1
        (fun j hj hd hf => stepBits_max v hle hj hd hf) hl⟩
    · exact ⟨[], .nil a b (by omega)⟩

end Acltk
