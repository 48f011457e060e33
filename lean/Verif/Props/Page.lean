import Verif.Spec.PageSpec
import Verif.Props.Resolve
/-!
# C100-C102: the page of a configuration
-/
namespace Acltk.Page
open Acltk Acltk.Resolve

theorem lists_iff {sel : Sel} {sns : Bool} {x : El} : lists sel sns x = true ↔ Shown sel sns x := by
  cases sel with
  | none => exact ⟨fun _ => (fun s h => by cases h), fun _ => rfl⟩
  | some s =>
    simp only [lists, Bool.or_eq_true, decide_eq_true_eq]
    constructor
    · intro h t e; cases e; exact h
    · intro h; exact h s rfl

theorem grey_iff {sel : Sel} {x : El} : grey sel x = true ↔ NotSelected sel x := by
  cases sel with
  | none => exact ⟨fun h => (Bool.false_ne_true h).elim, by rintro ⟨s, h, -⟩; cases h⟩
  | some s =>
    simp only [grey, decide_eq_true_eq]
    constructor
    · intro h; exact ⟨s, rfl, h⟩
    · rintro ⟨_, e, h⟩; cases e; exact h

theorem shown_iff {sel : Sel} {sns : Bool} {x : El} : Shown sel sns x ↔ ¬ NotSelected sel x ∨ sns = true := by
  cases sel with
  | none =>
    refine ⟨fun _ => Or.inl ?_, fun _ s h => by cases h⟩
    rintro ⟨s, h, -⟩; cases h
  | some s =>
    constructor
    · intro h
      rcases h s rfl with h | h
      · exact Or.inl (by rintro ⟨_, e, h'⟩; cases e; exact h' h)
      · exact Or.inr h
    · rintro h _ e
      cases e
      by_cases hx : x ∈ s
      · exact Or.inl hx
      · rcases h with h | h
        · exact absurd ⟨s, rfl, hx⟩ h
        · exact Or.inr h

/-! ## numbers -/

/-- The start of the run of position `k`. -/
def lastStart (ids : List (Option String)) : Nat → Nat
  | 0 => 0
  | k + 1 => if Starts ids (k + 1) then k + 1 else lastStart ids k

/-- How many runs begin before position `k`. -/
def runs (ids : List (Option String)) (k : Nat) : Nat := ((List.range k).filter fun m => decide (Starts ids m)).length

theorem lastStart_le (ids : List (Option String)) (k : Nat) : lastStart ids k ≤ k := by
  induction k with
  | zero => exact Nat.le_refl 0
  | succ k ih => unfold lastStart; split <;> omega

theorem runs_succ (ids : List (Option String)) (k : Nat) : runs ids (k + 1) = runs ids k + if Starts ids k then 1 else 0 := by
  unfold runs
  rw [List.range_succ, List.filter_append, List.length_append]
  split <;> simp_all

theorem number (ids : List (Option String)) (k : Nat) (hk : k < ids.length) : Number ids k (runs ids (k + 1)) (k + 1 - lastStart ids k) := by
  have hle := lastStart_le ids k
  have e : k + 1 - (k + 1 - lastStart ids k) = lastStart ids k := by omega
  refine ⟨rfl, by omega, by omega, ?_, ?_⟩
  · rw [e]
    clear hle e
    induction k with
    | zero => exact ⟨hk, Or.inl rfl⟩
    | succ k ih =>
      unfold lastStart
      split
      · assumption
      · exact ih (by omega)
  · rw [e]
    clear hle e
    induction k with
    | zero => intro m h1 h2; unfold lastStart at h1; omega
    | succ k ih =>
      intro m h1 h2
      unfold lastStart at h1
      split at h1
      · omega
      · rename_i hs
        by_cases hm : m = k + 1
        · rw [hm]; exact hs
        · exact ih (by omega) m h1 (by omega)

/-- There is at most one number for a position. -/
theorem number_unique {ids : List (Option String)} {k i j i' j' : Nat} (h : Number ids k i j) (h' : Number ids k i' j') : i = i' ∧ j = j' := by
  refine ⟨h.run.trans h'.run.symm, ?_⟩
  have h1 := h.le; have h2 := h'.le; have h3 := h.pos; have h4 := h'.pos
  rcases Nat.lt_trichotomy j j' with hj | hj | hj
  · exact absurd h.start (h'.same _ (by omega) (by omega))
  · exact hj
  · exact absurd h'.start (h.same _ (by omega) (by omega))

/-! ## the rows -/

theorem rowsFrom_eq {idOf : Oid → Option String} {inactive : Oid → Bool} {sel : Sel} {sns : Bool} {ids : List (Option String)} :
    ∀ (t : List Oid) (k : Nat) (s : St), ids.drop k = t.map idOf → k ≤ ids.length →
      s.last = (if k = 0 then none else ids[k - 1]?) → s.iface = runs ids k → (0 < k → s.rule = k - lastStart ids (k - 1) + 1) →
      rowsFrom idOf inactive sel sns s t =
        (t.zipIdx k).flatMap (expected idOf inactive sel sns ids fun k => (runs ids (k + 1), k + 1 - lastStart ids k)) := by
  intro t
  induction t with
  | nil => intros; rfl
  | cons o t ih =>
    intro k s hd hk hl hi hr
    have hlt : k < ids.length := by
      rcases Nat.lt_or_ge k ids.length with h | h
      · exact h
      · rw [List.drop_eq_nil_of_le h] at hd; cases hd
    have hget : ids[k]? = some (idOf o) := by
      have := congrArg List.head? hd
      rw [List.head?_drop] at this
      simpa using this
    have hch : (s.last ≠ some (idOf o)) ↔ Starts ids k := by
      rw [hl]
      unfold Starts
      by_cases h0 : k = 0
      · simp [h0, hlt, h0 ▸ hlt]
      · simp only [h0, if_false, false_or, hlt, true_and, hget]
    -- the state behind the update
    have hs : ∃ s1 : St, (if decide (s.last ≠ some (idOf o)) = true then (⟨some (idOf o), s.iface + 1, 1⟩ : St) else s) = s1 ∧
        s1.last = some (idOf o) ∧ s1.iface = runs ids (k + 1) ∧ s1.rule = k + 1 - lastStart ids k := by
      refine ⟨_, rfl, ?_⟩
      by_cases hc : Starts ids k
      · rw [if_pos (by simpa using hch.2 hc)]
        refine ⟨rfl, ?_, ?_⟩
        · rw [runs_succ, if_pos hc, hi]
        · have : lastStart ids k = k := by
            cases k with
            | zero => rfl
            | succ k => unfold lastStart; rw [if_pos hc]
          rw [this]; show 1 = k + 1 - k; omega
      · have he : s.last = some (idOf o) := Decidable.byContradiction fun h => hc (hch.1 h)
        rw [if_neg (by simpa using he)]
        refine ⟨he, ?_, ?_⟩
        · rw [runs_succ, if_neg hc, hi]; rfl
        · obtain ⟨m, rfl⟩ : ∃ m, k = m + 1 := by
            cases k with
            | zero => exact absurd ⟨hlt, Or.inl rfl⟩ hc
            | succ m => exact ⟨m, rfl⟩
          have h1 := lastStart_le ids m
          have h2 : lastStart ids (m + 1) = lastStart ids m := by
            show (if Starts ids (m + 1) then m + 1 else lastStart ids m) = _
            rw [if_neg hc]
          rw [hr (by omega), h2]
          simp only [Nat.add_sub_cancel]
          omega
    obtain ⟨s1, hs1, e1, e2, e3⟩ := hs
    have hst : step idOf inactive sel sns s o = ({ s1 with rule := s1.rule + 1 },
        expected idOf inactive sel sns ids (fun k => (runs ids (k + 1), k + 1 - lastStart ids k)) (o, k)) := by
      unfold step expected
      simp only [hs1, e2, e3]
      have hh : (decide (s.last ≠ some (idOf o)) && lists sel sns (idEl (idOf o))) = true ↔ Starts ids k ∧ Shown sel sns (idEl (idOf o)) := by
        rw [Bool.and_eq_true, decide_eq_true_iff, hch, lists_iff]
      have hhead : (if (decide (s.last ≠ some (idOf o)) && lists sel sns (idEl (idOf o))) = true then [Row.head (idOf o)] else []) =
          (if Starts ids k ∧ Shown sel sns (idEl (idOf o)) then [Row.head (idOf o)] else []) := by
        by_cases h : Starts ids k ∧ Shown sel sns (idEl (idOf o))
        · rw [if_pos h, if_pos (hh.2 h)]
        · rw [if_neg h, if_neg (fun h' => h (hh.1 h'))]
      rw [hhead]
      by_cases hn : NotSelected sel (.obj o)
      · rw [if_pos (grey_iff.2 hn)]
        cases sns with
        | true =>
          have : Shown sel true (.obj o) := shown_iff.2 (Or.inr rfl)
          simp only [this, hn, if_true]
        | false =>
          have : ¬ Shown sel false (.obj o) := fun h => (shown_iff.1 h).elim (fun h => h hn) (fun h => by cases h)
          simp only [this, if_false, List.append_nil]
          rfl
      · have hs' : Shown sel sns (.obj o) := shown_iff.2 (Or.inl hn)
        rw [if_neg (fun h => hn (grey_iff.1 h))]
        simp only [hs', hn, if_true, if_false]
    simp only [rowsFrom, hst, List.zipIdx_cons, List.flatMap_cons]
    congr 1
    refine ih (k + 1) _ ?_ hlt ?_ e2 ?_
    · have := congrArg List.tail hd
      rwa [List.tail_drop, List.map_cons, List.tail_cons] at this
    · rw [if_neg (by omega)]
      show s1.last = _
      rw [e1, Nat.add_sub_cancel, hget]
    · intro _
      show s1.rule + 1 = _
      rw [e3, Nat.add_sub_cancel]

/-- **C100.** The access control list of a page, whatever filter was applied: in the order of the configuration, the rules that are to
be shown, and before the first rule of each run of rules of one list the head of that list, if that is to be shown.  A rule is numbered by its
run and its position in the run: these numbers are the same on every page of the configuration.  What is not selected is grey. -/
theorem C100_rows (idOf : Oid → Option String) (inactive : Oid → Bool) (rules : List Oid) :
    ∃ num : Nat → Nat × Nat, (∀ k, k < rules.length → Number (rules.map idOf) k (num k).1 (num k).2) ∧
      ∀ sel sns, rows idOf inactive sel sns rules = rules.zipIdx.flatMap (expected idOf inactive sel sns (rules.map idOf) num) := by
  refine ⟨fun k => (runs (rules.map idOf) (k + 1), k + 1 - lastStart (rules.map idOf) k), fun k hk => number (rules.map idOf) k (by simpa using hk), fun sel sns => ?_⟩
  exact rowsFrom_eq rules 0 {} (by simp) (by simp) rfl rfl (fun h => absurd h (by omega))

/-- What is true of the rows before the loop goes on: the head of the list of the last rule is there, and behind it rules of that run only. -/
def HeadThere (idOf : Oid → Option String) (sel : Sel) (sns : Bool) (acc : List Row) (s : St) : Prop :=
  ∀ i, s.last = some i → Shown sel sns (idEl i) → ∃ b1 b2, acc = b1 ++ .head i :: b2 ∧
    ∀ r ∈ b2, ∃ o j c, r = .rule o s.iface j c ∧ idOf o = i

theorem step_head {idOf : Oid → Option String} {inactive : Oid → Bool} {sel : Sel} {sns : Bool} {acc : List Row} {s : St} {o : Oid}
    (H : HeadThere idOf sel sns acc s) : ∃ h m, (step idOf inactive sel sns s o).2 = h ++ m ∧
      (m = [] ∨ ∃ j c, Shown sel sns (.obj o) ∧ m = [.rule o (step idOf inactive sel sns s o).1.iface j c]) ∧
      (∀ r ∈ h, ∃ i, r = .head i) ∧ (step idOf inactive sel sns s o).1.last = some (idOf o) ∧
      HeadThere idOf sel sns (acc ++ h) (step idOf inactive sel sns s o).1 := by
  -- the state behind the update, and the head
  obtain ⟨s1, hs1⟩ : ∃ s1 : St, (if decide (s.last ≠ some (idOf o)) = true then (⟨some (idOf o), s.iface + 1, 1⟩ : St) else s) = s1 := ⟨_, rfl⟩
  obtain ⟨h, hh⟩ : ∃ h, (if (decide (s.last ≠ some (idOf o)) && lists sel sns (idEl (idOf o))) = true then [Row.head (idOf o)] else []) = h := ⟨_, rfl⟩
  have h1 : (step idOf inactive sel sns s o).1.iface = s1.iface ∧ (step idOf inactive sel sns s o).1.last = s1.last := by
    unfold step
    simp only [hs1]
    split
    · split <;> exact ⟨rfl, rfl⟩
    · exact ⟨rfl, rfl⟩
  have h2 : ∃ m, (step idOf inactive sel sns s o).2 = h ++ m ∧ (m = [] ∨ ∃ j c, Shown sel sns (.obj o) ∧ m = [.rule o s1.iface j c]) := by
    unfold step
    simp only [hs1, hh]
    by_cases hg : grey sel (.obj o) = true
    · rw [if_pos hg]
      cases hn : sns with
      | true => exact ⟨_, rfl, Or.inr ⟨_, _, shown_iff.2 (Or.inr rfl), rfl⟩⟩
      | false => exact ⟨[], (List.append_nil _).symm, Or.inl rfl⟩
    · rw [if_neg hg]
      exact ⟨_, rfl, Or.inr ⟨_, _, shown_iff.2 (Or.inl fun h => hg (grey_iff.2 h)), rfl⟩⟩
  obtain ⟨m, e1, e2⟩ := h2
  have hl : s1.last = some (idOf o) := by
    rw [← hs1]
    split
    · rfl
    · rename_i hc; simpa using hc
  refine ⟨h, m, e1, ?_, ?_, by rw [h1.2, hl], ?_⟩
  · rcases e2 with e2 | ⟨j, c, e2, e3⟩
    · exact Or.inl e2
    · exact Or.inr ⟨j, c, e2, by rw [h1.1]; exact e3⟩
  · intro r hr
    rw [← hh] at hr
    split at hr
    · exact ⟨_, List.mem_singleton.1 hr⟩
    · cases hr
  · intro i hi hsh
    rw [h1.2, hl] at hi
    cases hi
    rw [h1.1]
    by_cases hc : s.last = some (idOf o)
    · have : s1 = s := by rw [← hs1, if_neg (by simpa using hc)]
      rw [this]
      have hh' : h = [] := by rw [← hh, if_neg (by simp [hc])]
      rw [hh', List.append_nil]
      exact H _ hc hsh
    · have hh' : h = [.head (idOf o)] := by
        rw [← hh, if_pos]
        rw [Bool.and_eq_true, lists_iff]
        exact ⟨by simpa using hc, hsh⟩
      exact ⟨acc, [], by rw [hh'], by simp⟩

theorem heads_from {idOf : Oid → Option String} {inactive : Oid → Bool} {sel : Sel} {sns : Bool} :
    ∀ (t : List Oid) (acc : List Row) (s : St), HeadThere idOf sel sns acc s →
      (∀ o ∈ t, Shown sel sns (.obj o) → Shown sel sns (idEl (idOf o))) →
      ∀ before o i j c after, rowsFrom idOf inactive sel sns s t = before ++ .rule o i j c :: after →
        ∃ b1 b2, acc ++ before = b1 ++ .head (idOf o) :: b2 ∧ ∀ r ∈ b2, ∃ o' j' c', r = .rule o' i j' c' ∧ idOf o' = idOf o := by
  intro t
  induction t with
  | nil => intro acc s _ _ before o i j c after e; cases before <;> cases e
  | cons x t ih =>
    intro acc s H hid before o i j c after e
    obtain ⟨h, m, e1, e2, e3, e4, e5⟩ := step_head (inactive := inactive) (o := x) H
    have e : h ++ (m ++ rowsFrom idOf inactive sel sns (step idOf inactive sel sns s x).1 t) = before ++ .rule o i j c :: after := by
      rw [← List.append_assoc, ← e1]; exact e
    -- the rule does not stand among the heads
    obtain ⟨b', rfl, e'⟩ : ∃ b', before = h ++ b' ∧ m ++ rowsFrom idOf inactive sel sns (step idOf inactive sel sns s x).1 t = b' ++ .rule o i j c :: after := by
      rcases List.append_eq_append_iff.1 e with ⟨b', e6, e7⟩ | ⟨b', e6, e7⟩
      · exact ⟨b', e6, e7⟩
      · cases b' with
        | nil => exact ⟨[], by simpa using e6.symm, e7.symm⟩
        | cons r b' =>
          cases e7
          obtain ⟨k, hk⟩ := e3 (.rule o i j c) (by rw [e6]; simp)
          cases hk
    clear e
    rcases e2 with rfl | ⟨jj, cc, hsh, rfl⟩
    · obtain ⟨b1, b2, f1, f2⟩ := ih (acc ++ h) _ e5 (fun o ho => hid o (List.mem_cons_of_mem _ ho)) b' o i j c after e'
      exact ⟨b1, b2, by rw [← List.append_assoc]; exact f1, f2⟩
    · have here : ∃ b1 b2, acc ++ h = b1 ++ .head (idOf x) :: b2 ∧
          ∀ r ∈ b2, ∃ o' j' c', r = .rule o' (step idOf inactive sel sns s x).1.iface j' c' ∧ idOf o' = idOf x :=
        e5 _ e4 (hid x (by simp) hsh)
      obtain ⟨b1, b2, f1, f2⟩ := here
      cases b' with
      | nil =>
        cases e'
        exact ⟨b1, b2, by rw [List.append_nil]; exact f1, f2⟩
      | cons r b' =>
        obtain ⟨g0, g⟩ := List.cons.inj e'
        subst g0
        have H' : HeadThere idOf sel sns (acc ++ h ++ [.rule x (step idOf inactive sel sns s x).1.iface jj cc]) (step idOf inactive sel sns s x).1 := by
          intro k hk hs
          rw [e4] at hk
          cases hk
          refine ⟨b1, b2 ++ [.rule x (step idOf inactive sel sns s x).1.iface jj cc], by rw [f1]; simp, ?_⟩
          intro r hr
          rcases List.mem_append.1 hr with hr | hr
          · exact f2 r hr
          · exact ⟨x, jj, cc, List.mem_singleton.1 hr, rfl⟩
        obtain ⟨c1, c2, g1, g2⟩ := ih _ _ H' (fun o ho => hid o (List.mem_cons_of_mem _ ho)) b' o i j c after g
        exact ⟨c1, c2, by rw [← g1]; simp, g2⟩

/-- **C100.** Every rule on the page stands below the head of its list, with nothing between them but rules of the same run — provided the
selection, if there is one, holds the ids of its rules, as `resolve` sees to. -/
theorem C100_heads (idOf : Oid → Option String) (inactive : Oid → Bool) (rules : List Oid) (sel : Sel) (sns : Bool)
    (hid : ∀ s, sel = some s → ∀ o ∈ rules, .obj o ∈ s → idEl (idOf o) ∈ s)
    (before after : List Row) (o : Oid) (i j : Nat) (c : Cls) (h : rows idOf inactive sel sns rules = before ++ .rule o i j c :: after) :
    ∃ b1 b2, before = b1 ++ .head (idOf o) :: b2 ∧ ∀ r ∈ b2, ∃ o' j' c', r = .rule o' i j' c' ∧ idOf o' = idOf o := by
  have := heads_from (idOf := idOf) (inactive := inactive) (sel := sel) (sns := sns) rules [] {} (by intro i hi; cases hi) ?_ before o i j c after h
  · rwa [List.nil_append] at this
  · intro o ho hs t ht
    rcases hs t ht with hs | hs
    · exact Or.inl (hid t ht o ho hs)
    · exact Or.inr hs

/-! ## sections -/

/-- What is in the closure of rules and NAT entries: these, what something refers to, and the names of addresses. -/
theorem closure_objects {heap : Oid → Obj} {tb : Tables} (W : WellFormed heap tb) {chosen : List Oid}
    (hc : ∀ o ∈ chosen, o ∈ tb.rules ∨ o ∈ tb.nat) {x : El} (h : Closure (info heap) (chosen.map .obj) x) :
    ∀ o, x = .obj o → o ∈ chosen ∨ Refers heap tb o ∨
      (o ∈ tb.names ∧ ∃ a, Closure (info heap) (chosen.map .obj) (.obj a) ∧ heap a = .address (some o)) := by
  induction h with
  | selected hm =>
    rintro o rfl
    obtain ⟨q, hq, e⟩ := List.mem_map.1 hm
    cases e
    exact Or.inl hq
  | @field a y hm hf =>
    rintro o rfl
    obtain ⟨q, hq, e⟩ := List.mem_map.1 hm
    cases e
    exact Or.inr (Or.inl (.field (hc _ hq) hf))
  | @pull a y ha hp ih =>
    rintro o rfl
    generalize hx : El.obj o = x at hp
    cases hp with
    | @member _ l' _ hi hm =>
      subst hx
      -- a group
      obtain ⟨c, n, hg⟩ : ∃ c n, heap a = .group c n l' := by
        unfold info at hi
        split at hi <;> first | (cases hi; done) | skip
        cases hi
        exact ⟨_, _, by assumption⟩
      rcases ih a rfl with h | h | ⟨h, -⟩
      · exfalso
        rcases hc a h with h | h
        · obtain ⟨_, _, _, _, _, _, _, _, e⟩ := W.rules a h; rw [e] at hg; cases hg
        · obtain ⟨_, _, e⟩ := W.nat a h; rw [e] at hg; cases hg
      · exact Or.inr (Or.inl (.member h hg hm))
      · obtain ⟨_, e⟩ := W.names a h; rw [e] at hg; cases hg
    | target hi =>
      subst hx
      have hg : heap a = .address (some o) := by
        unfold info at hi
        split at hi <;> first | (cases hi; done) | skip
        rename_i t e
        cases t with
        | none => cases hi
        | some t => cases hi; exact e
      rcases ih a rfl with h | h | ⟨h, -⟩
      · exfalso
        rcases hc a h with h | h
        · obtain ⟨_, _, _, _, _, _, _, _, e⟩ := W.rules a h; rw [e] at hg; cases hg
        · obtain ⟨_, _, e⟩ := W.nat a h; rw [e] at hg; cases hg
      · exact Or.inr (Or.inr ⟨W.target a o h hg, a, ha, hg⟩)
      · obtain ⟨_, e⟩ := W.names a h; rw [e] at hg; cases hg
    | iface hi =>
      exfalso
      unfold info at hi
      split at hi <;> cases hi
    | groupLabel | names | label | ifaceLabel | natLabel => cases hx

/-- A named object of a completed selection comes with the label of its section. -/
theorem label_there {heap : Oid → Obj} {tb : Tables} (W : WellFormed heap tb) {chosen : List Oid}
    (hc : ∀ o ∈ chosen, o ∈ tb.rules ∨ o ∈ tb.nat) {o : Oid} (h : Closure (info heap) (chosen.map .obj) (.obj o)) {s : Sect} {n : String}
    (hn : nameOf heap o = some (s, n)) : Closure (info heap) (chosen.map .obj) (.str s.label) := by
  unfold nameOf at hn
  split at hn <;> cases hn
  · rename_i e
    rcases closure_objects W hc h o rfl with h' | h' | ⟨-, a, ha, hg⟩
    · rcases hc o h' with h' | h'
      · obtain ⟨_, _, _, _, _, _, _, _, e'⟩ := W.rules o h'; rw [e'] at e; cases e
      · obtain ⟨_, _, e'⟩ := W.nat o h'; rw [e'] at e; cases e
    · exact absurd rfl (W.listed o .names _ h' (by unfold nameOf; rw [e])).1
    · refine .pull ha (.names (x := .obj o) ?_)
      simp only [info, hg]
      rfl
  · rename_i l e
    refine .pull h (.groupLabel (l := l) ?_)
    simp only [info, e]
    rfl
  · rename_i e
    refine .pull h (.label ?_)
    simp only [info, e]
    rfl
  · rename_i e
    refine .pull h (.label ?_)
    simp only [info, e]
    rfl
  · rename_i e
    refine .pull h (.label ?_)
    simp only [info, e]
    rfl

theorem listed_name {heap : Oid → Obj} {tb : Tables} (W : WellFormed heap tb) {s : Sect} (hs : s ≠ .interface) {n : String} {o : Oid}
    (h : Listed heap tb s n o) : nameOf heap o = some (s, n) := by
  unfold Listed at h
  split at h
  · rename_i e; subst e; unfold nameOf; rw [h.2]
  · exact W.table s n o hs h

theorem mem_sortKeys {lower : String → String} {l : List String} {n : String} : n ∈ sortKeys lower l ↔ n ∈ l :=
  (List.mergeSort_perm _ _).mem_iff

theorem mem_entries {lower : String → String} {heap : Oid → Obj} {tb : Tables} (W : WellFormed heap tb) {sel : Sel} {sns : Bool} {s : Sect} {e : Item} :
    e ∈ entries lower heap tb sel sns s ↔ Shown sel sns (.str s.label) ∧ Listed heap tb s e.name e.obj ∧ Shown sel sns (.obj e.obj) ∧
      e.grey = decide (NotSelected sel (.obj e.obj)) := by
  have hg : ∀ o, grey sel (.obj o) = decide (NotSelected sel (.obj o)) := by
    intro o
    by_cases h : NotSelected sel (.obj o)
    · rw [grey_iff.2 h, decide_eq_true h]
    · rw [decide_eq_false h, Bool.eq_false_iff]; exact fun h' => h (grey_iff.1 h')
  obtain ⟨n, o, g⟩ := e
  unfold entries Listed
  by_cases hs : s = .names
  · subst hs
    rw [if_pos rfl, if_pos rfl]
    unfold nameSection
    by_cases hl : lists sel sns (.str "Names") = true
    · rw [if_pos hl]
      simp only [List.mem_filterMap]
      constructor
      · rintro ⟨q, hq, h⟩
        split at h
        · rename_i h2
          obtain ⟨m, hm⟩ := W.names q hq
          unfold nameItem at h; rw [hm] at h
          cases h
          exact ⟨lists_iff.1 hl, ⟨hq, hm⟩, lists_iff.1 h2, hg _⟩
        · cases h
      · rintro ⟨-, ⟨h1, h2⟩, h3, h4⟩
        refine ⟨o, h1, ?_⟩
        simp only [lists_iff.2 h3, nameItem, h2, hg, if_true]
        rw [h4]
    · rw [if_neg hl]
      constructor
      · intro h; cases h
      · rintro ⟨h, -⟩; exact absurd (lists_iff.2 h) hl
  · rw [if_neg hs, if_neg hs]
    unfold dictSection
    by_cases hl : lists sel sns (.str s.label) = true
    · rw [if_pos hl]
      simp only [List.mem_filterMap, mem_sortKeys]
      constructor
      · rintro ⟨m, hm, h⟩
        cases hd : dGet (tb.table s) m with
        | none => rw [hd] at h; cases h
        | some q =>
          rw [hd] at h
          simp only at h
          split at h
          · rename_i h2
            cases h
            exact ⟨lists_iff.1 hl, hd, lists_iff.1 h2, hg _⟩
          · cases h
      · rintro ⟨-, h2, h3, h4⟩
        refine ⟨n, (dGet_isSome_iff _ _).1 (by rw [h2]; rfl), ?_⟩
        simp only [h2, lists_iff.2 h3, hg, if_true]
        rw [h4]
    · rw [if_neg hl]
      constructor
      · intro h; cases h
      · rintro ⟨h, -⟩; exact absurd (lists_iff.2 h) hl

/-- **C101.** The sections of a page, with any filter or none: each lists exactly the objects of its class that the configuration has
and that are to be shown (selected, or referred to from the selection), grey if they are not; by name regardless of case, no name twice (the
names of addresses in the order of the configuration). -/
theorem C101_sections (lower : String → String) (heap : Oid → Obj) (tb : Tables) (W : WellFormed heap tb) (chosen : List Oid) (sel : Sel)
    (hsel : Completes heap tb chosen sel) (sns : Bool) (s : Sect) (hs : s ≠ .interface) :
    (∀ n o g, ⟨n, o, g⟩ ∈ entries lower heap tb sel sns s ↔
      Listed heap tb s n o ∧ Shown sel sns (.obj o) ∧ g = decide (NotSelected sel (.obj o))) ∧
    (s ≠ .names → ((entries lower heap tb sel sns s).map (·.name)).Nodup ∧
      ((entries lower heap tb sel sns s).map (·.name)).Pairwise fun a b => lower a ≤ lower b) ∧
    (s = .names → ((entries lower heap tb sel sns s).map (·.obj)).Sublist tb.names) := by
  refine ⟨fun n o g => ?_, ?_, ?_⟩
  · rw [mem_entries W]
    constructor
    · exact fun h => h.2
    · intro h
      refine ⟨?_, h⟩
      intro r hr
      rcases h.2.1 r hr with h' | h'
      · exact Or.inl ((hsel.2 r hr _).2 (label_there W hsel.1 ((hsel.2 r hr _).1 h') (listed_name W hs h.1)))
      · exact Or.inr h'
  · intro hn
    have key : ((entries lower heap tb sel sns s).map (·.name)).Sublist (sortKeys (sortKey lower s) (dKeys (tb.table s))) := by
      unfold entries
      rw [if_neg hn]
      unfold dictSection
      split
      · generalize sortKeys (sortKey lower s) (dKeys (tb.table s)) = l
        induction l with
        | nil => exact List.Sublist.slnil
        | cons m l ih =>
          rw [List.filterMap_cons]
          cases hd : dGet (tb.table s) m with
          | none => exact ih.cons m
          | some q =>
            simp only
            split
            · rename_i h
              split at h
              · cases h
              · exact ih.cons m
            · rename_i h
              split at h
              · cases h; exact ih.cons_cons m
              · cases h
      · exact List.nil_sublist _
    have hlow : sortKey lower s = lower := by cases s <;> first | exact absurd rfl hs | rfl
    constructor
    · exact List.Nodup.sublist key ((List.mergeSort_perm _ _).nodup_iff.2 (W.nodup s))
    · refine List.Pairwise.sublist key ?_
      have := List.pairwise_mergeSort (le := fun a b => decide (sortKey lower s a ≤ sortKey lower s b)) ?_ ?_ (dKeys (tb.table s))
      · refine List.Pairwise.imp ?_ this
        intro a b h
        rw [hlow] at h
        simpa using h
      · intro a b c h1 h2
        simp only [decide_eq_true_eq] at h1 h2 ⊢
        exact String.le_trans h1 h2
      · intro a b
        simp only [Bool.or_eq_true, decide_eq_true_eq]
        exact String.le_total _ _
  · rintro rfl
    unfold entries
    rw [if_pos rfl]
    unfold nameSection
    split
    · generalize tb.names = l
      induction l with
      | nil => exact List.Sublist.slnil
      | cons m l ih =>
        rw [List.filterMap_cons]
        split
        · exact ih.cons m
        · rename_i h
          split at h
          · unfold nameItem at h
            split at h
            · cases h; exact ih.cons_cons m
            · cases h
          · cases h
    · exact List.nil_sublist _

/-! ## links -/

/-- What a link of a macro comes from: the object itself, or the name an address was written with. -/
theorem host_link {heap : Oid → Obj} {x : El} {l : Link} (h : l ∈ hostLinks heap x) (hi : l.1 ≠ .interface) :
    ∃ q, x = .obj q ∧ (nameOf heap q = some l ∨ ∃ t m, heap q = .address (some t) ∧ heap t = .name m ∧ l = (.names, m)) := by
  unfold hostLinks at h
  split at h
  · rename_i q
    refine ⟨q, rfl, ?_⟩
    split at h
    · rename_i t e
      split at h
      · rename_i m e'
        exact Or.inr ⟨t, m, e, e', List.mem_singleton.1 h⟩
      · cases h
    · rename_i e; refine Or.inl ?_; rw [List.mem_singleton.1 h]; unfold nameOf; rw [e]
    · rename_i e; refine Or.inl ?_; rw [List.mem_singleton.1 h]; unfold nameOf; rw [e]
    · rw [List.mem_singleton.1 h] at hi; exact absurd rfl hi
    · cases h
  · cases h

theorem port_link {heap : Oid → Obj} {x : El} {l : Link} (h : l ∈ portLinks heap x) : ∃ q, x = .obj q ∧ nameOf heap q = some l := by
  unfold portLinks at h
  split at h
  · rename_i q
    refine ⟨q, rfl, ?_⟩
    split at h
    · rename_i e; rw [List.mem_singleton.1 h]; unfold nameOf; rw [e]
    · cases h
  · cases h

theorem proto_link {heap : Oid → Obj} {x : El} {l : Link} (h : l ∈ protoLinks heap x) : ∃ q, x = .obj q ∧ nameOf heap q = some l := by
  unfold protoLinks at h
  split at h
  · rename_i q
    refine ⟨q, rfl, ?_⟩
    split at h
    · rename_i e; rw [List.mem_singleton.1 h]; unfold nameOf; rw [e]
    · rename_i e; rw [List.mem_singleton.1 h]; unfold nameOf; rw [e]
    · rename_i e; rw [List.mem_singleton.1 h]; unfold nameOf; rw [e]
    · cases h
  · cases h

theorem icmp_link {heap : Oid → Obj} {x : El} {l : Link} (h : l ∈ icmpLinks heap x) : ∃ q, x = .obj q ∧ nameOf heap q = some l := by
  unfold icmpLinks at h
  split at h
  · rename_i q
    refine ⟨q, rfl, ?_⟩
    split at h
    · rename_i e; rw [List.mem_singleton.1 h]; unfold nameOf; rw [e]
    · cases h
  · cases h

theorem option_link {heap : Oid → Obj} {x : El} {l : Link} (h : l ∈ optionLinks heap x) :
    ∃ q n, x = .obj q ∧ heap q = .timeRange n ∧ nameOf heap q = some l := by
  unfold optionLinks at h
  split at h
  · rename_i q
    split at h
    · rename_i n e; refine ⟨q, n, rfl, e, ?_⟩; rw [List.mem_singleton.1 h]; unfold nameOf; rw [e]
    · cases h
  · cases h

/-- What the links in the row of a rule or a NAT entry come from. -/
theorem field_link {heap : Oid → Obj} {o : Oid} {l : Link} (h : l ∈ links heap o) (hi : l.1 ≠ .interface)
    (ho : (∃ id p sh sp dh dp ic os, heap o = .rule id p sh sp dh dp ic os) ∨ ∃ r m, heap o = .nat r m) :
    ∃ q, Field (info heap) o (.obj q) ∧ (nameOf heap q = some l ∨ ∃ t m, heap q = .address (some t) ∧ heap t = .name m ∧ l = (.names, m)) := by
  rcases ho with ⟨id, p, sh, sp, dh, dp, ic, os, e⟩ | ⟨r, m, e⟩
  · obtain ⟨ri, hri, r1, r2, r3, r4, r5, r6, r7⟩ : ∃ ri, info heap o = .rule ri ∧ ri.protocol = p ∧ ri.srcHost = sh ∧ ri.srcPort = sp ∧
        ri.dstHost = dh ∧ ri.dstPort = dp ∧ (isIcmp heap p = true → ri.protoName = some "icmp" ∧ ri.icmp = ic) ∧
        (∀ q n, .obj q ∈ os → heap q = .timeRange n → .obj q ∈ ri.timeRanges) := by
      unfold info
      rw [e]
      refine ⟨_, rfl, rfl, rfl, rfl, rfl, rfl, ?_, ?_⟩
      · intro h
        unfold isIcmp at h
        split at h
        · split at h
          · rename_i hq
            simp only [protocolName, hq]
            exact ⟨congrArg some (of_decide_eq_true h), trivial⟩
          · cases h
        · cases h
      · intro q n hq ht
        simp only [List.mem_filter, isTimeRange, ht, and_true]
        exact hq
    unfold links at h
    rw [e] at h
    simp only [List.mem_append, List.mem_flatMap] at h
    rcases h with ((((h | h) | h) | h) | h) | ⟨x, hx, h⟩
    · obtain ⟨q, rfl, hq⟩ := proto_link h
      exact ⟨q, r1 ▸ .protocol hri, Or.inl hq⟩
    · obtain ⟨q, rfl, hq⟩ := host_link h hi
      exact ⟨q, r2 ▸ .srcHost hri, hq⟩
    · obtain ⟨q, rfl, hq⟩ := port_link h
      exact ⟨q, r3 ▸ .srcPort hri, Or.inl hq⟩
    · obtain ⟨q, rfl, hq⟩ := host_link h hi
      exact ⟨q, r4 ▸ .dstHost hri, hq⟩
    · split at h
      · rename_i hic
        obtain ⟨x, hx, h⟩ := List.mem_flatMap.1 h
        obtain ⟨q, rfl, hq⟩ := icmp_link h
        refine ⟨q, .icmp hri (Or.inl (r6 hic).1) ?_, Or.inl hq⟩
        rw [(r6 hic).2]
        exact Option.mem_toList.1 hx
      · obtain ⟨q, rfl, hq⟩ := port_link h
        exact ⟨q, r5 ▸ .dstPort hri, Or.inl hq⟩
    · obtain ⟨q, n, rfl, ht, hq⟩ := option_link h
      exact ⟨q, .timeRange hri (r7 q n hx ht), Or.inl hq⟩
  · have hri : info heap o = .nat (some r) (some m) := by unfold info; rw [e]
    unfold links at h
    rw [e] at h
    simp only [List.mem_append, List.mem_flatMap, Option.mem_toList] at h
    rcases h with ((((h | ⟨x, hx, h⟩) | ⟨x, hx, h⟩) | h) | ⟨x, hx, h⟩) | ⟨x, hx, h⟩
    · obtain ⟨q, hx, hq⟩ := host_link h hi
      exact ⟨q, hx ▸ .natIface hri (Or.inl rfl), hq⟩
    · obtain ⟨q, rfl, hq⟩ := host_link h hi
      exact ⟨q, .natSrc hri (Or.inl rfl) hx, hq⟩
    · obtain ⟨q, rfl, hq⟩ := host_link h hi
      exact ⟨q, .natDst hri (Or.inl rfl) hx, hq⟩
    · obtain ⟨q, hx, hq⟩ := host_link h hi
      exact ⟨q, hx ▸ .natIface hri (Or.inr rfl), hq⟩
    · obtain ⟨q, rfl, hq⟩ := host_link h hi
      exact ⟨q, .natSrc hri (Or.inr rfl) hx, hq⟩
    · obtain ⟨q, rfl, hq⟩ := host_link h hi
      exact ⟨q, .natDst hri (Or.inr rfl) hx, hq⟩

/-- What the links in the entry of a group come from. -/
theorem member_link {heap : Oid → Obj} {o : Oid} {l : Link} (h : l ∈ links heap o) (hi : l.1 ≠ .interface) {c : GroupClass} {n : String} {ms : List El}
    (ho : heap o = .group c n ms) :
    ∃ q, .obj q ∈ ms ∧ (nameOf heap q = some l ∨ ∃ t m, heap q = .address (some t) ∧ heap t = .name m ∧ l = (.names, m)) := by
  unfold links at h
  rw [ho] at h
  cases c <;> simp only [List.mem_flatMap] at h <;> obtain ⟨x, hx, h⟩ := h
  · obtain ⟨q, rfl, hq⟩ := host_link h hi; exact ⟨q, hx, hq⟩
  · obtain ⟨q, rfl, hq⟩ := proto_link (List.mem_filter.1 h).1; exact ⟨q, hx, Or.inl hq⟩
  · obtain ⟨q, rfl, hq⟩ := port_link h; exact ⟨q, hx, Or.inl hq⟩
  · obtain ⟨q, rfl, hq⟩ := icmp_link h; exact ⟨q, hx, Or.inl hq⟩
  · obtain ⟨q, rfl, hq⟩ := proto_link h; exact ⟨q, hx, Or.inl hq⟩

theorem mem_rows {idOf : Oid → Option String} {inactive : Oid → Bool} {sel : Sel} {sns : Bool} {rules : List Oid} {o : Oid} {i j : Nat} {c : Cls}
    (h : .rule o i j c ∈ rows idOf inactive sel sns rules) : o ∈ rules ∧ Shown sel sns (.obj o) := by
  obtain ⟨num, -, e⟩ := C100_rows idOf inactive rules
  rw [e] at h
  obtain ⟨⟨q, k⟩, hq, h⟩ := List.mem_flatMap.1 h
  have hm : q ∈ rules := (List.mem_zipIdx' hq).2 ▸ List.getElem_mem _
  unfold expected at h
  rcases List.mem_append.1 h with h | h
  · split at h
    · cases List.mem_singleton.1 h
    · cases h
  · split at h
    · rename_i hs
      cases List.mem_singleton.1 h
      exact ⟨hm, hs⟩
    · cases h

/-- **C102, what holds.** Every link of a page, with any filter or none, leads to an entry of that page: those of the rules, NAT entries and groups
that are shown, to objects, groups, services, time ranges and names.  Left out are the links to interfaces. -/
theorem C102_links_partial (lower : String → String) (heap : Oid → Obj) (idOf : Oid → Option String) (inactive : Oid → Bool) (tb : Tables)
    (W : WellFormed heap tb) (chosen : List Oid) (sel : Sel) (hsel : Completes heap tb chosen sel) (sns : Bool)
    (o : Oid) (ho : OnPage lower heap idOf inactive tb sel sns o) (l : Link) (hl : l ∈ links heap o) (hi : l.1 ≠ .interface) :
    Anchored lower heap tb sel sns l := by
  -- an object that something refers to, and that is shown, has its entry
  have key : ∀ q, Refers heap tb q → Shown sel sns (.obj q) → (nameOf heap q = some l ∨ ∃ t m, heap q = .address (some t) ∧ heap t = .name m ∧ l = (.names, m)) →
      Anchored lower heap tb sel sns l := by
    rintro q hr hs (hn | ⟨t, m, h1, h2, rfl⟩)
    · have hd := W.listed q l.1 l.2 hr hn
      refine ⟨⟨l.2, q, _⟩, ((C101_sections lower heap tb W chosen sel hsel sns l.1 hi).1 _ _ _).2 ⟨?_, hs, rfl⟩, Or.inl rfl⟩
      unfold Listed
      rw [if_neg hd.1]
      exact hd.2
    · have ht := W.target q t hr h1
      refine ⟨⟨m, t, _⟩, ((C101_sections lower heap tb W chosen sel hsel sns .names hi).1 _ _ _).2 ⟨?_, ?_, rfl⟩, Or.inl rfl⟩
      · unfold Listed
        rw [if_pos rfl]
        exact ⟨ht, h2⟩
      · intro r hr'
        rcases hs r hr' with hs | hs
        · refine Or.inl ((hsel.2 r hr' _).2 (.pull ((hsel.2 r hr' _).1 hs) (.target ?_)))
          simp only [info, h1]
          rfl
        · exact Or.inr hs
  -- rules and NAT entries
  have fields : (o ∈ tb.rules ∨ o ∈ tb.nat) → Shown sel sns (.obj o) → Anchored lower heap tb sel sns l := by
    intro hm hs
    obtain ⟨q, hf, hq⟩ := field_link hl hi (hm.imp (W.rules o) (W.nat o))
    refine key q (.field hm hf) ?_ hq
    intro r hr
    rcases hs r hr with hs | hs
    · refine Or.inl ((hsel.2 r hr _).2 (.field (o := o) ?_ hf))
      rcases closure_objects W hsel.1 ((hsel.2 r hr _).1 hs) o rfl with h | h | ⟨h, -⟩
      · exact List.mem_map.2 ⟨o, h, rfl⟩
      · exact absurd hm (by have := W.fresh o h; intro h'; rcases h' with h' | h'; exact this.1 h'; exact this.2 h')
      · obtain ⟨m, e⟩ := W.names o h
        rcases hm with hm | hm
        · obtain ⟨_, _, _, _, _, _, _, _, e'⟩ := W.rules o hm; rw [e'] at e; cases e
        · obtain ⟨_, _, e'⟩ := W.nat o hm; rw [e'] at e; cases e
    · exact Or.inr hs
  cases ho with
  | rule h => exact fields (Or.inl (mem_rows h).1) (mem_rows h).2
  | nat h =>
    unfold natRows at h
    split at h
    · obtain ⟨h1, h2⟩ := List.mem_filter.1 h
      exact fields (Or.inr h1) (lists_iff.1 h2)
    · cases h
  | @entry s e h =>
    obtain ⟨-, h1, h2, -⟩ := (mem_entries W).1 h
    -- only groups have links
    cases hh : heap e.obj with
    | group c n ms =>
      obtain ⟨q, hm, hq⟩ := member_link hl hi hh
      have hd : dGet (tb.table s) e.name = some e.obj := by
        unfold Listed at h1
        split at h1
        · rw [hh] at h1; cases h1.2
        · exact h1
      refine key q (.listed hd hh hm) ?_ hq
      intro r hr
      rcases h2 r hr with h2 | h2
      · refine Or.inl ((hsel.2 r hr _).2 (.pull ((hsel.2 r hr _).1 h2) (.member (l := ms) (cls := c.cls) ?_ hm)))
        simp only [info, hh]
      · exact Or.inr h2
    | netObject n ms =>
      unfold links at hl
      rw [hh] at hl
      obtain ⟨x, hx, hl⟩ := List.mem_flatMap.1 hl
      rw [W.addresses _ _ _ hh x hx] at hl
      cases hl
    | rule | nat =>
      exfalso
      by_cases hs : s = .interface
      · subst hs
        obtain ⟨m, e'⟩ := W.ifaces _ _ h1
        rw [hh] at e'
        cases e'
      · have := listed_name W hs h1
        unfold nameOf at this
        rw [hh] at this
        cases this
    | _ => unfold links at hl; rw [hh] at hl; cases hl

/-- **C101 for NAT.** The NAT entries of a page are those of the configuration that are to be shown, in their order. -/
theorem C101_nat (heap : Oid → Obj) (tb : Tables) (W : WellFormed heap tb) (chosen : List Oid) (sel : Sel)
    (hsel : Completes heap tb chosen sel) (sns : Bool) :
    natRows tb sel sns = tb.nat.filter fun o => decide (Shown sel sns (.obj o)) := by
  have hf : (fun o => lists sel sns (.obj o)) = fun o => decide (Shown sel sns (.obj o)) := by
    funext o
    rw [Bool.eq_iff_iff, lists_iff, decide_eq_true_iff]
  unfold natRows
  rw [hf]
  split
  · rfl
  · rename_i hl
    symm
    rw [List.filter_eq_nil_iff]
    intro o ho h
    apply hl
    rw [lists_iff]
    intro r hr
    rcases of_decide_eq_true h r hr with h | h
    · obtain ⟨a, b, e⟩ := W.nat o ho
      refine Or.inl ((hsel.2 r hr _).2 (.pull ((hsel.2 r hr _).1 h) (.natLabel (a := some a) (b := some b) ?_)))
      simp only [info, e]
    · exact Or.inr h

/-- Without a filter, or with everything shown, a link to an interface leads to its entry if there is an interface with that name,
or with that `nameif`. -/
theorem C102_interfaces_unfiltered (lower : String → String) (heap : Oid → Obj) (tb : Tables) (W : WellFormed heap tb) (sel : Sel) (sns : Bool)
    (h : sel = none ∨ sns = true) (n : String) :
    Anchored lower heap tb sel sns (.interface, n) ↔
      ∃ m o, dGet (tb.table .interface) m = some o ∧ (m = n ∨ heap o = .interface (some n)) := by
  have hs : ∀ x, Shown sel sns x := by
    intro x r hr
    rcases h with h | h
    · rw [h] at hr; cases hr
    · exact Or.inr h
  constructor
  · rintro ⟨e, he, h⟩
    obtain ⟨-, h1, -, -⟩ := (mem_entries W).1 he
    exact ⟨e.name, e.obj, h1, h.imp id (·.2)⟩
  · rintro ⟨m, o, hd, h⟩
    exact ⟨⟨m, o, decide (NotSelected sel (.obj o))⟩, (mem_entries W).2 ⟨hs _, hd, hs _, rfl⟩, h.imp id fun h => ⟨rfl, h⟩⟩

/-- **C102 is violated: links to interfaces.** With a filter the page has no anchor for any interface (unless a selected rule is of a
list named "Interface"): `resolve` never adds the label of that section. -/
theorem C102_violated_interfaces (lower : String → String) (heap : Oid → Obj) (tb : Tables) (W : WellFormed heap tb) (chosen : List Oid) (r : List El)
    (hsel : Completes heap tb chosen (some r))
    (hid : ∀ o ∈ chosen, ¬ Field (info heap) o (.str "Interface")) (n : String) :
    ¬ Anchored lower heap tb (some r) false (.interface, n) := by
  rintro ⟨e, he, -⟩
  obtain ⟨h, -, -, -⟩ := (mem_entries W).1 he
  rcases h r rfl with h | h
  · have hc := (hsel.2 r rfl _).1 h
    have key : ∀ x, Closure (info heap) (chosen.map .obj) x → x ≠ .str "Interface" := by
      intro x hx
      induction hx with
      | selected hm =>
        obtain ⟨q, -, e⟩ := List.mem_map.1 hm
        rw [← e]; intro h; cases h
      | @field a y hm hf =>
        obtain ⟨q, hq, e⟩ := List.mem_map.1 hm
        cases e
        rintro rfl
        exact hid a hq hf
      | @pull a y ha hp ih =>
        rintro rfl
        generalize hx : El.str "Interface" = x at hp
        cases hp with
        | @member _ l' _ hi hm =>
          unfold info at hi
          split at hi <;> first | (cases hi; done) | skip
          rename_i c m l e
          cases hi
          obtain ⟨q, hq⟩ := W.members _ _ _ _ e x hm
          rw [hq] at hx
          cases hx
        | groupLabel hi =>
          unfold info at hi
          split at hi <;> first | (cases hi; done) | skip
          rename_i c m l e
          cases hi
          cases c <;> exact absurd hx (by decide)
        | target hi =>
          unfold info at hi
          split at hi <;> first | (cases hi; done) | skip
          rename_i t e
          cases t with
          | none => cases hi
          | some t => cases hi; cases hx
        | names | natLabel => exact absurd hx (by decide)
        | label hi =>
          unfold info at hi
          split at hi <;> first | (cases hi; done) | (cases hi; exact absurd hx (by decide))
        | iface hi | ifaceLabel hi =>
          unfold info at hi
          split at hi <;> cases hi
    exact key _ hc rfl
  · cases h

end Acltk.Page
