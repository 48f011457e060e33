import Verif.Props.FwsmPageSample
/-!
# C108: a text that defines a group twice, before and after its use
-/
namespace Acltk.Page
open Acltk Acltk.FwsmText

/-- A network group that is defined again before a rule uses it. -/
def redefinedText : List Char :=
  "object-group network g\n network-object host 10.0.0.1\nobject-group network g\n network-object host 10.0.0.2\naccess-list out extended permit ip any object-group g\n".toList

/-- A network group that is defined again after a rule has used it. -/
def redefinedLateText : List Char :=
  "object-group network g\n network-object host 10.0.0.1\naccess-list out extended permit ip any object-group g\nobject-group network g\n network-object host 10.0.0.2\n".toList

/-- The groups of the hosts of an element; nothing if it has other references. -/
def plainRefs (i : FwsmText.Item) : Option (List String) :=
  if idsOf i ≠ [] ∨ servicesOf i ≠ [] then none
  else if (hostsOf i).any (fun h => match h with | .obj _ _ => true | _ => false) then none
  else some ((hostsOf i).filterMap fun h => match h with | .group n _ => some n | _ => none)

/-- The names an element defines, and the groups it refers to. -/
def outline (i : FwsmText.Item) : Option String × Bool × Option (List String) :=
  (defName .netGroup i, (match i with | .netGroup _ _ _ | .rule _ => true | _ => false), plainRefs i)

theorem plain_refers {items : List FwsmText.Item} {k p : Nat} {c : Config.Kind} {m : String} (h : RefersTo items k c m p) {i : FwsmText.Item} (hi : items[k]? = some i)
    {d : Option String} {l : List String} (ho : outline i = (d, true, some l)) : c = .netGroup ∧ m ∈ l ∧ LastAt netGroupDef items k m p := by
  have hb := (Prod.mk.inj (Prod.mk.inj ho).2)
  have hl := hb.2
  unfold plainRefs at hl
  split at hl
  · cases hl
  · next h1 =>
    split at hl
    · cases hl
    · next h2 =>
      have h1 : idsOf i = [] ∧ servicesOf i = [] := by
        by_cases a : idsOf i = [] <;> by_cases b : servicesOf i = [] <;> simp_all
      cases h with
      | object h3 h4 _ =>
        rw [hi] at h3; cases h3
        exact absurd (List.any_eq_true.2 ⟨_, h4, rfl⟩) h2
      | group h3 h4 h5 =>
        rw [hi] at h3; cases h3
        refine ⟨rfl, ?_, h5⟩
        rw [← Option.some.inj hl]
        exact List.mem_filterMap.2 ⟨_, h4, rfl⟩
      | id h3 h4 => rw [hi] at h3; cases h3; rw [h1.1] at h4; cases h4
      | service h3 h4 => rw [hi] at h3; cases h3; rw [h1.2] at h4; cases h4
      | source h3 => rw [hi] at h3; cases h3; cases hb.1

theorem outline_get {items : List FwsmText.Item} {o : List (Option String × Bool × Option (List String))} (h : items.map outline = o) {k : Nat} {i : FwsmText.Item}
    (hi : items[k]? = some i) : o[k]? = some (outline i) := by
  rw [← h, List.getElem?_map, hi]; rfl

theorem outline_def {items : List FwsmText.Item} {o : List (Option String × Bool × Option (List String))} (h : items.map outline = o) {k : Nat} {n : String} {b l}
    (hk : o[k]? = some (some n, b, l)) : ∃ i, items[k]? = some i ∧ defName .netGroup i = some n := by
  rw [← h, List.getElem?_map, Option.map_eq_some_iff] at hk
  obtain ⟨i, hi, e⟩ := hk
  exact ⟨i, hi, (Prod.mk.inj e).1⟩

theorem outline_none {items : List FwsmText.Item} {o : List (Option String × Bool × Option (List String))} (h : items.map outline = o) {k : Nat} {i : FwsmText.Item} {n : String}
    (hi : items[k]? = some i) (hd : defName .netGroup i = some n) : ∃ b l, o[k]? = some (some n, b, l) := by
  rw [outline_get h hi]
  exact ⟨_, _, by rw [← hd]; rfl⟩

theorem netGroupDef_of {i : FwsmText.Item} {n : String} (h : defName .netGroup i = some n) : ∃ l, netGroupDef i = some (n, l) := by
  cases i <;> simp [defName] at h
  exact ⟨_, by rw [← h]; rfl⟩

theorem settled_of {items : List FwsmText.Item} (h : items.map outline = [(some "g", true, some []), (some "g", true, some []), (none, true, some ["g"])]) : Settled items := by
  intro k c n p _ hr
  obtain ⟨i, hi⟩ := refersTo_elem hr
  have ho := outline_get h hi
  match k, ho with
  | 0, ho => obtain ⟨-, h2, -⟩ := plain_refers hr hi (Option.some.inj ho).symm; cases h2
  | 1, ho => obtain ⟨-, h2, -⟩ := plain_refers hr hi (Option.some.inj ho).symm; cases h2
  | 2, ho =>
    obtain ⟨rfl, h2, h3, -, h4⟩ := plain_refers hr hi (Option.some.inj ho).symm
    have h2 : n = "g" := List.mem_singleton.1 h2
    subst h2
    obtain ⟨j, hj, hd⟩ := outline_def h (k := 1) rfl
    obtain ⟨l, hl⟩ := netGroupDef_of hd
    have hp : p = 1 := by
      have : ¬ p < 1 := fun hlt => h4 1 j l hlt (by omega) hj hl
      omega
    subst hp
    refine ⟨⟨j, hj, hd⟩, fun q x hx hd => ?_⟩
    obtain ⟨b, l, hq⟩ := outline_none h hx hd
    match q, hq with
    | 0, _ => decide
    | 1, _ => decide
    | 2, hq => cases hq
    | q + 3, hq => cases hq
  | k + 3, ho => cases ho

theorem not_settled_of {items : List FwsmText.Item} (h : items.map outline = [(some "g", true, some []), (none, true, some ["g"]), (some "g", true, some [])]) : ¬ Settled items := by
  intro hS
  obtain ⟨i0, hi0, hd0⟩ := outline_def h (k := 0) rfl
  obtain ⟨i2, hi2, hd2⟩ := outline_def h (k := 2) rfl
  have h1 : ∃ i1, items[1]? = some i1 ∧ outline i1 = (none, true, some ["g"]) := by
    have : (items.map outline)[1]? = some (none, true, some ["g"]) := by rw [h]; rfl
    rw [List.getElem?_map, Option.map_eq_some_iff] at this
    exact this
  obtain ⟨i1, hi1, ho⟩ := h1
  obtain ⟨l0, hl0⟩ := netGroupDef_of hd0
  have hd := (Prod.mk.inj ho).1
  have hb := (Prod.mk.inj (Prod.mk.inj ho).2)
  have hrule : ∃ r, i1 = .rule r := by
    cases i1 <;> first | exact ⟨_, rfl⟩ | (cases hb.1; done) | (cases hd; done)
  obtain ⟨r, rfl⟩ := hrule
  have hg : ∃ l, Host.group "g" l ∈ hostsOf (.rule r) := by
    have hl := hb.2
    unfold plainRefs at hl
    split at hl
    · cases hl
    · split at hl
      · cases hl
      · have : "g" ∈ (hostsOf (.rule r)).filterMap (fun h => match h with | .group n _ => some n | _ => none) := by rw [Option.some.inj hl]; exact List.mem_singleton.2 rfl
        obtain ⟨x, hx, e⟩ := List.mem_filterMap.1 this
        cases x <;> simp at e
        subst e
        exact ⟨_, hx⟩
  obtain ⟨l, hm⟩ := hg
  have := hS 1 .netGroup "g" 0 (.rule hi1) (.group hi1 hm ⟨by decide, ⟨i0, l0, hi0, hl0⟩, fun q i v h1 h2 => by omega⟩)
  have := this.2 2 i2 hi2 hd2
  revert this
  decide

/-- **C108, names defined twice.** The first text is accepted and settled although it defines a group twice; the second is accepted and not settled: its rule refers to the definition
that is not kept. -/
theorem C108_settled_sample : (∃ items, FwsmText.parseFile Lookup.tatsuGuard redefinedText = .ok items [] ∧ Settled items ∧ ¬ Once items) ∧
    ∃ items, FwsmText.parseFile Lookup.tatsuGuard redefinedLateText = .ok items [] ∧ ¬ Settled items := by
  constructor
  · have hc : (match FwsmText.parseFile Lookup.tatsuGuard redefinedText with
        | .ok items [] => items.map outline == [(some "g", true, some []), (some "g", true, some []), (none, true, some ["g"])]
        | _ => false) = true := by decide +kernel
    split at hc
    · next items h =>
      have hm := beq_iff_eq.1 hc
      refine ⟨items, h, settled_of hm, fun hO => ?_⟩
      obtain ⟨i, hi, hd⟩ := outline_def hm (k := 0) rfl
      obtain ⟨j, hj, he⟩ := outline_def hm (k := 1) rfl
      exact absurd (hO .netGroup "g" 0 1 i j hi hj hd he) (by decide)
    · cases hc
  · have hc : (match FwsmText.parseFile Lookup.tatsuGuard redefinedLateText with
        | .ok items [] => items.map outline == [(some "g", true, some []), (none, true, some ["g"]), (some "g", true, some [])]
        | _ => false) = true := by decide +kernel
    split at hc
    · next items h => exact ⟨items, h, not_settled_of (beq_iff_eq.1 hc)⟩
    · cases hc

end Acltk.Page
