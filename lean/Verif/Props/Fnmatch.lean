import Verif.Lemmas.FnmatchMain
/-!
# C09: id patterns have glob semantics

`fnmatchcase name pat` is the model of the standard library matcher used by `ACLRule.__and__`
(Verif/Model/Fnmatch.lean); `Glob.Matches` and `Glob.Sane` are the specification
(Verif/Spec/Glob.lean).
-/
namespace Acltk
open Fnmatch Glob

/-- **C09** the matcher accepts a name iff the name can be split according to the glob, for
every name and every pattern none of whose brackets is of the one degenerate kind excluded by
`Sane` (see `C09_quirk`).  In particular the committed (atomic, leftmost) treatment of all
stars but the last never loses a match. -/
theorem C09_fnmatch_is_glob (name pat : String) (hs : Sane pat.toList) :
    fnmatchcase name pat = true ↔ Matches pat.toList name.toList := fnmatchcase_iff name pat hs

/-- A pattern without `[` is always sane. -/
theorem sane_of_no_bracket {p : List Char} (h : '[' ∉ p) : Sane p := by
  intro pre t post e; exfalso; apply h; rw [e]; simp

/-- **C09** for patterns made of `*`, `?` and literals there is no side condition but the absence
of `[`. -/
theorem C09_fnmatch_no_bracket (name pat : String) (h : '[' ∉ pat.toList) :
    fnmatchcase name pat = true ↔ Matches pat.toList name.toList :=
  fnmatchcase_iff name pat (sane_of_no_bracket h)

/-- **C09, the exception**: in `[z-a!x]` the reversed range is removed first, which leaves a
leading `!` that is then read as negation: the pattern accepts `q` although the glob denotes
only `!` and `x`. -/
theorem C09_quirk : fnmatchcase "q" "[z-a!x]" = true ∧ ¬ Matches "[z-a!x]".toList "q".toList := by
  refine ⟨by decide +kernel, ?_⟩
  intro h
  generalize hp : "[z-a!x]".toList = p at h
  generalize hq : "q".toList = q at h
  have hp' : ['[', 'z', '-', 'a', '!', 'x', ']'] = p := hp
  have hq' : ['q'] = q := hq
  clear hp hq
  cases h with
  | nil => simp at hp'
  | star => simp at hp'
  | any => simp at hp'
  | unclosed => simp at hq'
  | lit _ _ h3 => simp at hp'; exact h3 hp'.1.symm
  | set hb hc _ =>
    simp only [List.cons.injEq, true_and] at hp' hq'
    obtain ⟨rfl, -⟩ := hq'
    have hb' : BracketText false ['z', '-', 'a', '!', 'x'] ['z', '-', 'a', '!', 'x'] :=
      .pos (by simp) (by decide) (by decide)
    have := bracketText_unique hb' hb (p1 := []) hp'
    obtain ⟨rfl, rfl, -, -⟩ := this
    have : InClass ['z', '-', 'a', '!', 'x'] 'q' := hc.2 rfl
    obtain ⟨p, hm, h1, h2⟩ := this
    have hm : p ∈ [('z', 'a'), ('!', '!'), ('x', 'x')] := hm
    simp only [List.mem_cons, List.not_mem_nil, or_false] at hm
    revert h1 h2
    rcases hm with rfl | rfl | rfl <;> decide

-- a two-star pattern whose first star must not stop at the wrong place
example : '[' ∉ "*in?ide*de".toList ∧ fnmatchcase "x_inside_de" "*in?ide*de" = true := by decide +kernel
example : fnmatchcase "outside" "[!a-m]*" = true ∧ fnmatchcase "inside" "[!a-m]*" = false := by decide +kernel
-- a bracket pattern that is sane
example : Sane "[!a-m]*".toList := by
  intro pre t post e hb hi hf
  have e' : ['[', '!', 'a', '-', 'm', ']', '*'] = pre ++ '[' :: (t ++ ']' :: post) := e
  cases pre with
  | nil =>
    simp only [List.nil_append, List.cons.injEq, true_and] at e'
    cases hb with
    | pos h1 h2 h3 =>
      cases t with
      | nil => exact h1 rfl
      | cons x t => simp at e'; exact h3 (by simp [e'.1.symm])
  | cons x pre =>
    have : '[' ∈ ['!', 'a', '-', 'm', ']', '*'] := by
      simp only [List.cons_append, List.cons.injEq] at e'; rw [e'.2]; simp
    revert this; decide

end Acltk
