import Verif.Model.Fnmatch
import Verif.Spec.Glob
namespace Acltk.Fnmatch
open Glob

def dup (c : Char) : Char × Char := (c, c)

def consHead (y : Char) : List (List Char) → List (List Char)
  | [] => [[y]]
  | a :: r => (y :: a) :: r

theorem findDash_two (y : Char) (t : List Char) :
    findDash 2 (y :: t) = (findDash 1 t).map (fun p => (y :: p.1, p.2)) := by
  unfold findDash
  have : List.drop 2 (y :: t) = List.drop 1 t := rfl
  rw [this]
  have : List.take 2 (y :: t) = y :: List.take 1 t := by cases t <;> rfl
  rw [this]
  simp only
  split <;> simp

theorem findDash_one_spec {t u v : List Char} (h : findDash 1 t = some (u, v)) :
    t = u ++ '-' :: v ∧ u ≠ [] ∧ '-' ∉ u.tail := by
  unfold findDash at h
  simp only at h
  split at h
  · simp at h
  · rename_i x w hd
    simp only [Option.some.injEq, Prod.mk.injEq] at h
    obtain ⟨rfl, rfl⟩ := h
    have hx : x = '-' := by
      have := List.head?_dropWhile_not (fun c => decide (c ≠ '-')) (List.drop 1 t)
      rw [hd] at this; simpa using this
    subst hx
    cases t with
    | nil => simp at hd
    | cons a t =>
      simp only [List.drop_succ_cons, List.drop_zero] at hd ⊢
      refine ⟨?_, by simp, ?_⟩
      · have := List.takeWhile_append_dropWhile (p := fun c => decide (c ≠ '-')) (l := t)
        rw [hd] at this
        simp only [List.take_succ_cons, List.take_zero, List.cons_append, List.nil_append]
        rw [this]
      · simp only [List.take_succ_cons, List.take_zero, List.cons_append, List.nil_append,
          List.tail_cons]
        intro hm
        have := List.all_takeWhile (p := fun c => decide (c ≠ '-')) (l := t)
        rw [List.all_eq_true] at this
        simpa using this _ hm

theorem findDash_one_none {t : List Char} (h : findDash 1 t = none) : '-' ∉ t.tail := by
  unfold findDash at h
  simp only at h
  split at h
  · rename_i hd
    have h1 := List.takeWhile_append_dropWhile (p := fun c => decide (c ≠ '-')) (l := List.drop 1 t)
    rw [hd, List.append_nil] at h1
    have h3 := List.all_takeWhile (p := fun c => decide (c ≠ '-')) (l := List.drop 1 t)
    rw [h1, List.all_eq_true] at h3
    intro hm
    have h2 := h3 '-' (by simpa using hm)
    simp at h2
  · simp at h

theorem chunkLoop_none {off l} (h : findDash off l = none) : chunkLoop off l = [l] := by
  rw [chunkLoop]; split
  · rfl
  · simp_all

theorem chunkLoop_some_nil {off l u} (h : findDash off l = some (u, [])) :
    chunkLoop off l = [u ++ ['-']] := by
  rw [chunkLoop]; split
  · simp_all
  · rename_i u' v' h'
    rw [h] at h'
    simp only [Option.some.injEq, Prod.mk.injEq] at h'
    obtain ⟨rfl, rfl⟩ := h'
    rfl

theorem chunkLoop_some_cons {off l u y t} (h : findDash off l = some (u, y :: t)) :
    chunkLoop off l = u :: chunkLoop 2 (y :: t) := by
  rw [chunkLoop]; split
  · simp_all
  · rename_i u' v' h'
    rw [h] at h'
    simp only [Option.some.injEq, Prod.mk.injEq] at h'
    obtain ⟨rfl, rfl⟩ := h'
    rfl

theorem chunkLoop_two (y : Char) (t : List Char) :
    chunkLoop 2 (y :: t) = consHead y (chunkLoop 1 t) := by
  have h2 := findDash_two y t
  cases h1 : findDash 1 t with
  | none =>
    rw [h1] at h2
    rw [chunkLoop_none h1, chunkLoop_none h2]; rfl
  | some p =>
    obtain ⟨u, v⟩ := p
    rw [h1] at h2
    cases v with
    | nil => rw [chunkLoop_some_nil h1, chunkLoop_some_nil h2]; rfl
    | cons y' t' => rw [chunkLoop_some_cons h1, chunkLoop_some_cons h2]; rfl

theorem removeEmpty_consHead (y : Char) (a : List Char) (rest : List (List Char))
    (h : rest ≠ [] → a ≠ []) :
    removeEmpty (consHead y (a :: rest)) = consHead y (removeEmpty (a :: rest)) := by
  simp only [consHead, removeEmpty]
  cases hr : removeEmpty rest with
  | nil => rfl
  | cons b t =>
    have hne : rest ≠ [] := by rintro rfl; simp [removeEmpty] at hr
    have ha := h hne
    simp only
    obtain ⟨w, x, rfl⟩ : ∃ w x, a = w ++ [x] := ⟨_, _, (List.dropLast_concat_getLast ha).symm⟩
    rw [← List.cons_append]
    simp only [List.getLast?_append, List.getLast?_singleton, Option.some_or]
    cases b with
    | nil => rfl
    | cons z b =>
      simp only [List.head?_cons]
      have : (y :: (w ++ [x])).dropLast = y :: w := by
        rw [← List.cons_append, List.dropLast_concat]
      split
      · simp [this]
      · rfl

theorem classItems_noDash (t : List Char) (h : '-' ∉ t.tail) : classItems t = t.map dup := by
  induction t with
  | nil => rfl
  | cons x t ih =>
    cases t with
    | nil => rfl
    | cons z t =>
      have hz : z ≠ '-' := by rintro rfl; simp at h
      have := ih (by intro hm; apply h; simp at hm ⊢; exact Or.inr hm)
      rw [classItems]
      · rw [this]; rfl
      · intro y r he; simp at he; exact hz he.1

theorem classItems_range (w : List Char) (x y : Char) (t : List Char) (h : '-' ∉ (w ++ [x]).tail) :
    classItems (w ++ [x] ++ '-' :: y :: t) = w.map dup ++ (x, y) :: classItems t := by
  induction w with
  | nil => simp [classItems]
  | cons a w ih =>
    cases w with
    | nil =>
      have hx : x ≠ '-' := by rintro rfl; simp at h
      simp only [List.cons_append, List.nil_append]
      rw [classItems]
      · rw [classItems]; rfl
      · intro y r he; simp at he; exact hx he.1
    | cons z w =>
      have hz : z ≠ '-' := by rintro rfl; simp at h
      simp only [List.cons_append] at ih ⊢
      rw [classItems]
      · rw [ih (by intro hm; apply h; simp at hm ⊢; exact Or.inr hm)]; rfl
      · intro y r he; simp at he; exact hz he.1

theorem classItems_trailing (u : List Char) (hu : u ≠ []) (h : '-' ∉ u.tail) :
    classItems (u ++ ['-']) = (u ++ ['-']).map dup := by
  induction u with
  | nil => simp at hu
  | cons a u ih =>
    cases u with
    | nil =>
      simp only [List.cons_append, List.nil_append]
      rw [classItems, classItems]
      · rfl
      · simp
      · simp
    | cons z u =>
      have hz : z ≠ '-' := by rintro rfl; simp at h
      simp only [List.cons_append] at ih ⊢
      rw [classItems]
      · rw [ih (by simp) (by intro hm; apply h; simp at hm ⊢; exact Or.inr hm)]; rfl
      · intro y r he; simp at he; exact hz he.1

theorem setItems_lits (w : List Char) (S : List SetChar) (hS : S.head? ≠ some .dash) :
    setItems (w.map .lit ++ S) = w.map dup ++ setItems S := by
  induction w with
  | nil => rfl
  | cons a w ih =>
    simp only [List.map_cons, List.cons_append]
    rw [setItems]
    · rw [ih]; rfl
    · intro y r he
      cases w with
      | nil => simp at he; rw [he] at hS; simp at hS
      | cons b w => simp at he

theorem setItems_range (w : List Char) (x y : Char) (S : List SetChar) :
    setItems ((w ++ [x]).map .lit ++ .dash :: .lit y :: S) = w.map dup ++ (x, y) :: setItems S := by
  have := setItems_lits w (.lit x :: .dash :: .lit y :: S) (by simp)
  rw [List.map_append, List.append_assoc]
  simp only [List.map_cons, List.map_nil, List.cons_append, List.nil_append]
  rw [this]
  rfl

theorem joinChunks_cons (a b : List Char) (r : List (List Char)) :
    joinChunks (a :: b :: r) = a.map .lit ++ .dash :: joinChunks (b :: r) := rfl

theorem joinChunks_prepend (w a : List Char) (r : List (List Char)) :
    joinChunks ((w ++ a) :: r) = w.map .lit ++ joinChunks (a :: r) := by
  cases r with
  | nil => simp [joinChunks]
  | cons b r => simp [joinChunks_cons]

theorem joinChunks_head (a : List Char) (r : List (List Char)) (h : r ≠ [] → a ≠ []) :
    (joinChunks (a :: r)).head? ≠ some .dash := by
  cases a with
  | nil =>
    cases r with
    | nil => simp [joinChunks]
    | cons => simp at h
  | cons x a =>
    cases r <;> simp [joinChunks]

def okRange (p : Char × Char) : Bool := decide (p.1 ≤ p.2)

theorem filter_dup (w : List Char) : (w.map dup).filter okRange = w.map dup := by
  rw [List.filter_eq_self]
  intro p hp
  obtain ⟨c, _, rfl⟩ := List.mem_map.1 hp
  simp [okRange, dup]

theorem chunkLoop_one_shape (t : List Char) :
    ∃ a r, chunkLoop 1 t = a :: r ∧ (r ≠ [] → a ≠ []) := by
  cases h : findDash 1 t with
  | none => exact ⟨t, [], chunkLoop_none h, by simp⟩
  | some p =>
    obtain ⟨u, v⟩ := p
    cases v with
    | nil => exact ⟨_, [], chunkLoop_some_nil h, by simp⟩
    | cons y t' => exact ⟨u, _, chunkLoop_some_cons h, fun _ => (findDash_one_spec h).2.1⟩

/-- The chunk algorithm with removal of empty ranges computes the non-reversed items. -/
theorem chunks_items (n : Nat) : ∀ t : List Char, t.length ≤ n →
    ∃ a r, removeEmpty (chunkLoop 1 t) = a :: r ∧ (r ≠ [] → a ≠ []) ∧
      setItems (joinChunks (a :: r)) = (classItems t).filter okRange := by
  induction n with
  | zero =>
    intro t ht
    have : t = [] := by simpa using ht
    subst this
    refine ⟨[], [], ?_, by simp, by rfl⟩
    rw [chunkLoop_none (by rfl)]; rfl
  | succ n ih =>
    intro t ht
    cases h : findDash 1 t with
    | none =>
      refine ⟨t, [], ?_, by simp, ?_⟩
      · rw [chunkLoop_none h]; rfl
      · rw [classItems_noDash t (findDash_one_none h), filter_dup]
        have := setItems_lits t [] (by simp)
        simpa [joinChunks, setItems] using this
    | some p =>
      obtain ⟨u, v⟩ := p
      obtain ⟨rfl, hu, hd⟩ := findDash_one_spec h
      cases v with
      | nil =>
        refine ⟨u ++ ['-'], [], ?_, by simp, ?_⟩
        · rw [chunkLoop_some_nil h]; rfl
        · rw [classItems_trailing u hu hd, filter_dup]
          have := setItems_lits (u ++ ['-']) [] (by simp)
          simpa [joinChunks, setItems] using this
      | cons y t' =>
        obtain ⟨a, r, hC, hne, hitems⟩ := ih t' (by simp at ht; omega)
        obtain ⟨a0, r0, hC0, hne0⟩ := chunkLoop_one_shape t'
        obtain ⟨w, x, rfl⟩ : ∃ w x, u = w ++ [x] := ⟨_, _, (List.dropLast_concat_getLast hu).symm⟩
        have hrem : removeEmpty (chunkLoop 2 (y :: t')) = (y :: a) :: r := by
          rw [chunkLoop_two, hC0, removeEmpty_consHead y a0 r0 hne0, ← hC0, hC]; rfl
        rw [chunkLoop_some_cons h]
        have hrange := classItems_range w x y t' hd
        rw [removeEmpty, hrem]
        simp only [List.getLast?_append, List.getLast?_singleton, Option.some_or, List.head?_cons,
          List.dropLast_concat, List.tail_cons]
        rw [hrange, List.filter_append, filter_dup]
        by_cases hxy : x > y
        · rw [if_pos hxy]
          refine ⟨w ++ a, r, rfl, ?_, ?_⟩
          · intro hr; have := hne hr; simp [this]
          · rw [joinChunks_prepend, setItems_lits _ _ (joinChunks_head a r hne), hitems]
            have : okRange (x, y) = false := by
              unfold okRange; simp only [decide_eq_false_iff_not]; exact Char.not_le.2 hxy
            rw [List.filter_cons, this]; rfl
        · rw [if_neg hxy]
          refine ⟨w ++ [x], (y :: a) :: r, rfl, by simp, ?_⟩
          have e : joinChunks ((w ++ [x]) :: (y :: a) :: r) =
              (w ++ [x]).map .lit ++ .dash :: .lit y :: joinChunks (a :: r) := by
            rw [joinChunks_cons]
            have := joinChunks_prepend [y] a r
            simp only [List.cons_append, List.nil_append, List.map_cons, List.map_nil] at this
            rw [this]
          rw [e, setItems_range, hitems]
          have : okRange (x, y) = true := by
            unfold okRange; simp only [decide_eq_true_eq]; exact Char.not_lt.1 hxy
          rw [List.filter_cons, this]; rfl

def hasIn (l : List (Char × Char)) (c : Char) : Bool :=
  l.any (fun p => decide (p.1 ≤ c) && decide (c ≤ p.2))

theorem hasIn_filter (l : List (Char × Char)) (c : Char) : hasIn (l.filter okRange) c = hasIn l c := by
  unfold hasIn
  rw [List.any_filter]
  congr 1
  funext p
  unfold okRange
  by_cases h1 : p.1 ≤ c <;> by_cases h2 : c ≤ p.2 <;> simp [h1, h2]
  exact Char.le_trans h1 h2

theorem hasIn_iff (t : List Char) (c : Char) : hasIn (classItems t) c = true ↔ InClass t c := by
  unfold hasIn InClass; simp [List.any_eq_true]

/-- The text `s` that `translate` assembles for a body without leading `!`. -/
theorem assembled_items (t : List Char) (hb : t.head? ≠ some '!') :
    setItems (if '-' ∉ t then t.map SetChar.lit
      else joinChunks (removeEmpty (chunkLoop (if t.head? = some '!' then 2 else 1) t))) =
    (classItems t).filter okRange := by
  split
  · rename_i hd
    rw [classItems_noDash t (fun h => hd (List.mem_of_mem_tail h)), filter_dup]
    simpa [setItems] using setItems_lits t [] (by simp)
  · try rw [if_neg hb]
    obtain ⟨a, r, hC, _, hi⟩ := chunks_items _ t (Nat.le_refl _)
    rw [hC, hi]

theorem assembled_neg (t : List Char) :
    ∃ s, (if '-' ∉ ('!' :: t) then ('!' :: t).map SetChar.lit
      else joinChunks (removeEmpty (chunkLoop (if ('!' :: t).head? = some '!' then 2 else 1) ('!' :: t)))) =
      .lit '!' :: s ∧ setItems s = (classItems t).filter okRange := by
  split
  · rename_i hd
    refine ⟨t.map .lit, rfl, ?_⟩
    have hd' : '-' ∉ t := fun h => hd (by simp [h])
    rw [classItems_noDash t (fun h => hd' (List.mem_of_mem_tail h)), filter_dup]
    simpa [setItems] using setItems_lits t [] (by simp)
  · simp only [List.head?_cons, if_true]
    obtain ⟨a, r, hC, hne, hi⟩ := chunks_items _ t (Nat.le_refl _)
    obtain ⟨a0, r0, hC0, hne0⟩ := chunkLoop_one_shape t
    rw [chunkLoop_two, hC0, removeEmpty_consHead _ a0 r0 hne0, ← hC0, hC]
    refine ⟨joinChunks (a :: r), ?_, hi⟩
    exact joinChunks_prepend ['!'] a r

theorem bracket_pos (t : List Char) (hb : t.head? ≠ some '!')
    (hs : ∀ hi, (classItems t).find? okRange ≠ some ('!', hi)) (c : Char) :
    (bracket t).has c = hasIn (classItems t) c := by
  have h := assembled_items t hb
  rw [← hasIn_filter, ← h]
  rw [← List.head?_filter, ← h] at hs
  unfold bracket
  simp only
  generalize (if '-' ∉ t then t.map SetChar.lit
      else joinChunks (removeEmpty (chunkLoop (if t.head? = some '!' then 2 else 1) t))) = s at *
  split
  · rfl
  · exact absurd rfl (hs '!')
  · rename_i r _
    exfalso
    cases r with
    | nil => exact hs '!' rfl
    | cons z r =>
      cases z with
      | lit z => exact hs '!' rfl
      | dash =>
        cases r with
        | nil => exact hs '!' rfl
        | cons y r => exact hs y.char rfl
  · simp [Cls.has, hasIn]

theorem bracket_neg (t : List Char) (c : Char) :
    (bracket ('!' :: t)).has c = !hasIn (classItems t) c := by
  obtain ⟨s, hs, hi⟩ := assembled_neg t
  rw [← hasIn_filter, ← hi]
  unfold bracket
  simp only
  rw [hs]
  cases s with
  | nil => rfl
  | cons z r => simp [Cls.has, hasIn]

end Acltk.Fnmatch
