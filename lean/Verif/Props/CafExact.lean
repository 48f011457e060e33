import Verif.Props.Caf
/-!
# C14: exactly what parentheses do to a set
-/
namespace Acltk
open Caf

/-- The object is a parenthesised expression. -/
def isBlock : SetObj → Bool
  | .block _ => true
  | _ => false

theorem counts (i : Items) : ∀ l, itemVals i = .ok l → (noComments l).length = numParens i + numIps i ∧ ((noComments l).filter isBlock).length = numParens i := by
  match i with
  | .nil =>
    intro l h
    rw [itemVals] at h
    cases h
    simp [noComments, numParens, numIps]
  | .comment r =>
    intro l h
    rw [itemVals] at h
    cases e : itemVals r with
    | error => rw [e] at h; cases h
    | ok l' =>
      rw [e] at h
      cases h
      have := counts r l' e
      simpa [noComments, numParens, numIps] using this
  | .ip d nets r =>
    intro l h
    rw [itemVals] at h
    cases e : itemVals r with
    | error => rw [e] at h; cases h
    | ok l' =>
      rw [e] at h
      cases h
      obtain ⟨h1, h2⟩ := counts r l' e
      have hn : noComments (.ip d (netSem nets) :: l') = .ip d (netSem nets) :: noComments l' := by simp [noComments]
      rw [hn, List.filter_cons_of_neg (by simp [isBlock])]
      simp only [List.length_cons, numParens, numIps, h1, h2]
      exact ⟨by omega, trivial⟩
  | .paren c r =>
    intro l h
    rw [itemVals] at h
    cases e0 : chainItems c with
    | error => rw [e0] at h; cases h
    | ok items =>
      rw [e0] at h
      simp only at h
      cases e1 : exprSem items with
      | error => rw [e1] at h; cases h
      | ok x =>
        rw [e1] at h
        simp only at h
        cases e : itemVals r with
        | error => rw [e] at h; cases h
        | ok l' =>
          rw [e] at h
          cases h
          obtain ⟨h1, h2⟩ := counts r l' e
          have hn : noComments (.block (.block x) :: l') = .block (.block x) :: noComments l' := by simp [noComments]
          rw [hn, List.filter_cons_of_pos (by rfl)]
          simp only [List.length_cons, numParens, numIps, h1, h2]
          exact ⟨by omega, trivial⟩

theorem collectIps_block : ∀ (l : List SetObj), l.filter isBlock ≠ [] → collectIps l = .error .type := by
  intro l
  induction l with
  | nil => intro h; exact absurd rfl h
  | cons x l ih =>
    intro h
    cases x with
    | comment => simpa [collectIps] using ih (by simpa [isBlock] using h)
    | ip d n => simp [collectIps, ih (by simpa [isBlock] using h)]
    | block e => rfl

theorem set_raises (id : Option String) (objs : Items) (h1 : 1 ≤ numParens objs) (h2 : 2 ≤ numParens objs + numIps objs) : ∃ e, setVal (.mk id objs) = .error e := by
  cases e : itemVals objs with
  | error x => exact ⟨x, by rw [setVal, e]⟩
  | ok l =>
    obtain ⟨c1, c2⟩ := counts objs l e
    refine ⟨.type, ?_⟩
    rw [setVal, e]
    show setSem id l = _
    rw [setSem_def]
    have hne : ∀ x, noComments l ≠ [x] := by
      intro x hx
      rw [hx] at c1
      simp at c1
      omega
    have hb : (noComments l).filter isBlock ≠ [] := by
      intro hb
      rw [hb] at c2
      simp at c2
      omega
    split
    · rename_i x hx
      exact absurd hx (hne _)
    · rw [collectIps_block _ hb]

theorem set_id_ignored (id : Option String) (objs : Items) (h1 : numParens objs = 1) (h2 : numIps objs = 0) : setVal (.mk id objs) = setVal (.mk none objs) := by
  cases e : itemVals objs with
  | error x => rw [setVal, setVal, e]
  | ok l =>
    obtain ⟨c1, c2⟩ := counts objs l e
    rw [setVal, setVal, e]
    show setSem id l = setSem none l
    rw [setSem_def, setSem_def]
    have : ∃ x, noComments l = [.block x] := by
      rw [h1, h2] at c1
      rw [h1] at c2
      match hl : noComments l with
      | [] => rw [hl] at c1; cases c1
      | [.block x] => exact ⟨x, rfl⟩
      | [.comment] => rw [hl] at c2; cases c2
      | [.ip _ _] => rw [hl] at c2; cases c2
      | _ :: _ :: _ => rw [hl] at c1; simp at c1
    obtain ⟨x, hx⟩ := this
    rw [hx]

/-- **C14, exactly.** A set with a parenthesised expression is accepted exactly if there is nothing else in it but comments, and then it selects what the expression in parentheses selects, whatever
the id in front of it. -/
theorem C14_exact (id : Option String) (objs : Items) (ho : ItemsOk objs) (hp : 1 ≤ numParens objs) :
    ((∃ e, setVal (.mk id objs) = .ok e) ↔ numParens objs = 1 ∧ numIps objs = 0) ∧
    ∀ e, setVal (.mk id objs) = .ok e → parenSel objs = some (Sel e) := by
  by_cases h : numParens objs + numIps objs = 1
  · have h1 : numParens objs = 1 := by omega
    have h2 : numIps objs = 0 := by omega
    obtain ⟨e, he, hs⟩ := C14_parenthesis_partial objs ho h1 h2
    rw [← set_id_ignored id objs h1 h2] at he
    refine ⟨⟨fun _ => ⟨h1, h2⟩, fun _ => ⟨e, he⟩⟩, fun e' he' => ?_⟩
    rw [he] at he'
    cases he'
    exact hs
  · obtain ⟨x, hx⟩ := set_raises id objs hp (by omega)
    refine ⟨⟨fun ⟨e, he⟩ => ?_, fun ⟨h1, h2⟩ => absurd (by omega) h⟩, fun e he => ?_⟩
    · rw [hx] at he; cases he
    · rw [hx] at he; cases he

/-- The hypotheses are met: a parenthesised expression with a comment. -/
theorem C14_exact_sample : let objs := Items.comment (.paren (.one (.mk none (.ip .src [.net ⟨.v4, 0x0A000000, 8⟩] .nil))) .nil)
    ItemsOk objs ∧ 1 ≤ numParens objs ∧ numIps objs = 0 := by
  refine ⟨?_, by decide, by decide⟩
  simp only [ItemsOk, ChainOk, SetOk]
  refine ⟨⟨⟨by simp, ?_, trivial⟩, (by intro s b hs; cases hs), .inl rfl⟩, trivial⟩
  intro h hh
  simp at hh
  subst hh
  constructor

end Acltk
