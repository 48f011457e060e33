import Verif.Props.Lookup
/-!
# C57: exactly which NAT interface names are read
-/
namespace Acltk.Lookup
open Acltk

theorem token_any (guard : Guard) (w : List Char) (close : Char) (hc : close ≠ 'a' ∧ close ≠ 'n' ∧ close ≠ 'y') (rest : Text) :
    (∃ u, w = 'a' :: 'n' :: 'y' :: u ∧ token guard (w ++ close :: rest) "any" = if guard "any" (u ++ close :: rest) then some ("any", u ++ close :: rest) else none) ∨
    ((∀ u, w ≠ 'a' :: 'n' :: 'y' :: u) ∧ token guard (w ++ close :: rest) "any" = none) := by
  obtain ⟨h1, h2, h3⟩ := hc
  have hany : ("any" : String).toList = ['a', 'n', 'y'] := by decide
  by_cases h : ∃ u, w = 'a' :: 'n' :: 'y' :: u
  · obtain ⟨u, rfl⟩ := h
    refine .inl ⟨u, rfl, ?_⟩
    simp [token, hany]
  · refine .inr ⟨fun u e => h ⟨u, e⟩, ?_⟩
    have : ¬ (['a', 'n', 'y'] <+: w ++ close :: rest) := by
      rintro ⟨r, hr⟩
      match w with
      | [] => simp at hr; exact h1 hr.1.symm
      | [_] => simp at hr; exact h2 hr.2.1.symm
      | [_, _] => simp at hr; exact h3 hr.2.2.1.symm
      | a :: b :: c :: u => simp at hr; obtain ⟨rfl, rfl, rfl, -⟩ := hr; exact h ⟨u, rfl⟩
    simp [token, hany, this]

/-- **C57, exactly.** What is read for a written name: the keyword, or the known name unless it begins with the keyword and the keyword may stand in front of its next
character; nothing else. -/
theorem C57_exact (guard : Guard) (close : Char) (hguard : ∀ n t, guard n (close :: t) = true) (hc : close ≠ 'a' ∧ close ≠ 'n' ∧ close ≠ 'y')
    (names : List String) (hnames : ∀ n ∈ names, close ∉ n.toList) (w : String) (hw : close ∉ w.toList) (rest : Text) (n : String) (r : Text) :
    natInterface guard close names (w.toList ++ close :: rest) = some (n, r) ↔
      n = w ∧ r = rest ∧ (w = "any" ∨ w ∈ names ∧ ¬ ∃ c u, w.toList = 'a' :: 'n' :: 'y' :: c :: u ∧ guard "any" (c :: u ++ close :: rest) = true) := by
  rcases token_any guard w.toList close hc rest with ⟨u, hu, ht⟩ | ⟨hu, ht⟩
  · by_cases hg : guard "any" (u ++ close :: rest) = true
    · rw [if_pos hg] at ht
      unfold natInterface
      rw [ht]
      cases u with
      | nil =>
        have hwa : w = "any" := String.toList_inj.1 (by rw [hu]; decide)
        simp only [List.nil_append, ↓reduceIte, Option.some.injEq, Prod.mk.injEq]
        constructor
        · rintro ⟨rfl, rfl⟩; exact ⟨hwa.symm, rfl, .inl hwa⟩
        · rintro ⟨rfl, rfl, -⟩; exact ⟨hwa.symm, rfl⟩
      | cons c u =>
        have hcc : c ≠ close := by rintro rfl; exact hw (by rw [hu]; simp)
        simp only [List.cons_append, hcc, ↓reduceIte, false_iff, not_and, reduceCtorEq]
        rintro rfl rfl (h | ⟨-, h⟩)
        · rw [h] at hu
          have : ("any" : String).toList = ['a', 'n', 'y'] := by decide
          rw [this] at hu; simp at hu
        · exact h ⟨c, u, hu, by simpa using hg⟩
    · rw [if_neg hg] at ht
      rw [C57_nat_interface_partial guard close hguard names hnames w hw rest ht]
      have hne : u ≠ [] := by rintro rfl; exact hg (by simpa using hguard _ _)
      have hwa : w ≠ "any" := by
        rintro rfl
        have : ("any" : String).toList = ['a', 'n', 'y'] := by decide
        rw [this] at hu; simp at hu; exact hne hu
      have hnc : ¬ ∃ c u, w.toList = 'a' :: 'n' :: 'y' :: c :: u ∧ guard "any" (c :: u ++ close :: rest) = true := by
        rintro ⟨c, u', e, h⟩
        rw [hu] at e
        simp at e
        subst e
        exact hg h
      by_cases hm : w ∈ names
      · simp only [hm, ↓reduceIte, Option.some.injEq, Prod.mk.injEq, hwa, hnc, not_false_eq_true, and_self, or_true, and_true]
        constructor
        · rintro ⟨rfl, rfl⟩; exact ⟨rfl, rfl⟩
        · rintro ⟨rfl, rfl⟩; exact ⟨rfl, rfl⟩
      · simp [hm, hwa]
  · rw [C57_nat_interface_partial guard close hguard names hnames w hw rest ht]
    have hwa : w ≠ "any" := by
      rintro rfl
      exact hu [] (by decide)
    have hnc : ¬ ∃ c u, w.toList = 'a' :: 'n' :: 'y' :: c :: u ∧ guard "any" (c :: u ++ close :: rest) = true := by
      rintro ⟨c, u', e, h⟩
      exact hu _ e
    by_cases hm : w ∈ names
    · simp only [hm, ↓reduceIte, Option.some.injEq, Prod.mk.injEq, hwa, hnc, not_false_eq_true, and_self, or_true, and_true]
      constructor
      · rintro ⟨rfl, rfl⟩; exact ⟨rfl, rfl⟩
      · rintro ⟨rfl, rfl⟩; exact ⟨rfl, rfl⟩
    · simp [hm, hwa]

/-- **C57 is violated by every known name** that begins with `any` and goes on with something else than a letter or digit, whatever the other names. -/
theorem C57_violated_all (names : List String) (hnames : ∀ n ∈ names, ',' ∉ n.toList) (w : String) (c : Char) (u rest : Text) (hw : w.toList = 'a' :: 'n' :: 'y' :: c :: u)
    (hcomma : ',' ∉ w.toList) (hc : c.isAlphanum = false) : natInterface tatsuGuard ',' names (w.toList ++ ',' :: rest) = none := by
  have hg : ∀ n t, tatsuGuard n (',' :: t) = true := by
    intro n t
    have : Char.isAlphanum ',' = false := by decide
    simp [tatsuGuard, this]
  cases h : natInterface tatsuGuard ',' names (w.toList ++ ',' :: rest) with
  | none => rfl
  | some p =>
    obtain ⟨n, r⟩ := p
    obtain ⟨-, -, h | ⟨-, h⟩⟩ := (C57_exact tatsuGuard ',' hg (by decide) names hnames w hcomma rest n r).1 h
    · rw [h] at hw
      have : ("any" : String).toList = ['a', 'n', 'y'] := by decide
      rw [this] at hw; simp at hw
    · exact absurd ⟨c, u, hw, by simp [tatsuGuard, hc]⟩ h

/-- The hypotheses are met, by names that are read and names that are not. -/
theorem C57_exact_sample : natInterface tatsuGuard ',' ["inside", "anycast", "any-dmz"] ("anycast,x".toList) = some ("anycast", ['x']) ∧
    natInterface tatsuGuard ',' ["inside", "anycast", "any-dmz"] ("any-dmz,x".toList) = none ∧
    natInterface tatsuGuard ',' ["inside", "anycast", "any-dmz"] ("any,x".toList) = some ("any", ['x']) := by
  have hg : ∀ n t, tatsuGuard n (',' :: t) = true := by
    intro n t
    have : Char.isAlphanum ',' = false := by decide
    simp [tatsuGuard, this]
  have hn : ∀ n ∈ ["inside", "anycast", "any-dmz"], ',' ∉ n.toList := by decide
  refine ⟨?_, ?_, ?_⟩
  · exact (C57_exact tatsuGuard ',' hg (by decide) _ hn "anycast" (by decide) ['x'] _ _).2 ⟨rfl, rfl, .inr ⟨by decide, by
      rintro ⟨c, u, e, h⟩
      have : ("anycast" : String).toList = ['a', 'n', 'y', 'c', 'a', 's', 't'] := by decide
      rw [this] at e
      simp at e
      obtain ⟨rfl, rfl⟩ := e
      revert h
      decide⟩⟩
  · exact C57_violated_all _ hn "any-dmz" '-' ['d', 'm', 'z'] ['x'] (by decide) (by decide) (by decide)
  · exact (C57_exact tatsuGuard ',' hg (by decide) _ hn "any" (by decide) ['x'] _ _).2 ⟨rfl, rfl, .inl rfl⟩

end Acltk.Lookup
