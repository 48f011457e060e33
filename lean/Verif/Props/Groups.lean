import Verif.Spec.GroupSpec
import Verif.Props.HostMatch
/-!
# C23, C24: expansion of groups
-/
namespace Acltk

/-! ## lemmas -/

theorem GroupLeaf.trans {a b c : Host} (h1 : GroupLeaf a b) (h2 : GroupLeaf b c) : GroupLeaf a c := by
  induction h1 with
  | self => exact h2
  | group hm _ ih => exact .group hm (ih h2)

mutual
theorem expandOne_leaves (h : Host) : ∀ t b, NetLeaves t b → NetLeaves (h :: t) (replaceObjs (expandOne h) ++ b) := by
  cases h with
  | group nm l =>
    intro t b hb
    simp only [expandOne]
    exact .group (expandL_leaves l) hb
  | obj nm l =>
    intro t b hb
    simp only [expandOne, replaceObjs, List.append_nil]
    exact .obj hb
  | _ =>
    intro t b hb
    simp only [expandOne, replaceObjs, List.singleton_append]
    exact .other (by simp) (by simp) hb
theorem expandL_leaves (l : List Host) : NetLeaves l (replaceObjs (expandL l)) := by
  cases l with
  | nil => exact .nil
  | cons h t =>
    have happ : ∀ a b, replaceObjs (a ++ b) = replaceObjs a ++ replaceObjs b := by
      intro a b
      induction a with
      | nil => rfl
      | cons x xs ih => cases x <;> simp [replaceObjs, ih]
    simp only [expandL, happ]
    exact expandOne_leaves h t _ (expandL_leaves t)
end

theorem replaceObjs_append (a b : List Host) : replaceObjs (a ++ b) = replaceObjs a ++ replaceObjs b := by
  induction a with
  | nil => rfl
  | cons x xs ih => cases x <;> simp [replaceObjs, ih]

theorem expandL_append (a b : List Host) : expandL (a ++ b) = expandL a ++ expandL b := by
  induction a with
  | nil => rfl
  | cons x xs ih => simp [expandL, ih]

/-- Members of the result of `expand_r` are reached through groups and are no groups. -/
theorem mem_expandL_aux : (∀ h : Host, ∀ x, x ∈ expandOne h ↔ GroupLeaf h x ∧ ∀ nm l, x ≠ .group nm l) ∧
    (∀ l : List Host, ∀ x, x ∈ expandL l ↔ (∃ m ∈ l, GroupLeaf m x) ∧ ∀ nm l, x ≠ .group nm l) := by
  have key : ∀ n, (∀ h : Host, sizeOf h ≤ n → ∀ x, x ∈ expandOne h ↔ GroupLeaf h x ∧ ∀ nm l, x ≠ .group nm l) ∧
      (∀ l : List Host, sizeOf l ≤ n → ∀ x, x ∈ expandL l ↔ (∃ m ∈ l, GroupLeaf m x) ∧ ∀ nm l, x ≠ .group nm l) := by
    intro n
    induction n with
    | zero =>
      constructor
      · intro h hs; cases h <;> simp at hs <;> omega
      · intro l hs; cases l <;> simp at hs
    | succ n ih =>
      obtain ⟨ih1, ih2⟩ := ih
      constructor
      · intro h hs x
        cases h with
        | group nm l =>
          simp only [Host.group.sizeOf_spec] at hs
          simp only [expandOne]
          rw [ih2 l (by omega)]
          constructor
          · rintro ⟨⟨m, hm, hg⟩, hx⟩; exact ⟨.group hm hg, hx⟩
          · rintro ⟨hg, hx⟩
            cases hg with
            | self => exact absurd rfl (hx _ _)
            | group hm hg => exact ⟨⟨_, hm, hg⟩, hx⟩
        | _ =>
          simp only [expandOne, List.mem_singleton]
          constructor
          · rintro rfl; exact ⟨.self, by simp⟩
          · rintro ⟨hg, _⟩; cases hg; rfl
      · intro l hs x
        cases l with
        | nil => simp [expandL]
        | cons h t =>
          simp only [List.cons.sizeOf_spec] at hs
          simp only [expandL, List.mem_append, ih1 h (by omega), ih2 t (by omega), List.mem_cons]
          constructor
          · rintro (⟨hg, hx⟩ | ⟨⟨m, hm, hg⟩, hx⟩)
            · exact ⟨⟨h, .inl rfl, hg⟩, hx⟩
            · exact ⟨⟨m, .inr hm, hg⟩, hx⟩
          · rintro ⟨⟨m, rfl | hm, hg⟩, hx⟩
            · exact .inl ⟨hg, hx⟩
            · exact .inr ⟨⟨m, hm, hg⟩, hx⟩
  exact ⟨fun h => (key (sizeOf h)).1 h (Nat.le_refl _), fun l => (key (sizeOf l)).2 l (Nat.le_refl _)⟩

theorem mem_expandL {l : List Host} {x : Host} :
    x ∈ expandL l ↔ (∃ m ∈ l, GroupLeaf m x) ∧ ∀ nm l, x ≠ .group nm l := mem_expandL_aux.2 l x

theorem mem_replaceObjs {l : List Host} {x : Host} :
    x ∈ replaceObjs l ↔ (x ∈ l ∧ ∀ nm a, x ≠ .obj nm a) ∨ ∃ nm a, .obj nm a ∈ l ∧ x ∈ a := by
  induction l with
  | nil => simp [replaceObjs]
  | cons h t ih =>
    by_cases ho : ∃ nm a, h = .obj nm a
    · obtain ⟨nm, a, rfl⟩ := ho
      simp only [replaceObjs, List.mem_append, ih, List.mem_cons]
      constructor
      · rintro (h | ⟨h1, h2⟩ | ⟨n, b, h1, h2⟩)
        · exact .inr ⟨nm, a, .inl rfl, h⟩
        · exact .inl ⟨.inr h1, h2⟩
        · exact .inr ⟨n, b, .inr h1, h2⟩
      · rintro (⟨rfl | h1, h2⟩ | ⟨n, b, h1 | h1, h2⟩)
        · exact absurd rfl (h2 _ _)
        · exact .inr (.inl ⟨h1, h2⟩)
        · cases h1; exact .inl h2
        · exact .inr (.inr ⟨n, b, h1, h2⟩)
    · have hne : ∀ nm a, h ≠ .obj nm a := fun nm a e => ho ⟨nm, a, e⟩
      have : replaceObjs (h :: t) = h :: replaceObjs t := by
        cases h <;> first | rfl | exact absurd rfl (hne _ _)
      simp only [this, List.mem_cons, ih]
      constructor
      · rintro (rfl | ⟨h1, h2⟩ | ⟨n, b, h1, h2⟩)
        · exact .inl ⟨.inl rfl, hne⟩
        · exact .inl ⟨.inr h1, h2⟩
        · exact .inr ⟨n, b, .inr h1, h2⟩
      · rintro (⟨rfl | h1, h2⟩ | ⟨n, b, h1 | h1, h2⟩)
        · exact .inl rfl
        · exact .inr (.inl ⟨h1, h2⟩)
        · exact absurd h1.symm (hne _ _)
        · exact .inr (.inr ⟨n, b, h1, h2⟩)

theorem isLeaf_of {h : Host} (h1 : ∀ nm l, h ≠ .group nm l) (h2 : ∀ nm l, h ≠ .obj nm l) : Leaf h h := by
  cases h <;> first | exact absurd rfl (h1 _ _) | exact absurd rfl (h2 _ _) | constructor

theorem Leaf.ne {h : Host} (hl : Leaf h h) : (∀ nm l, h ≠ .group nm l) ∧ (∀ nm l, h ≠ .obj nm l) :=
  ⟨fun _ _ e => not_isLeaf_group (e ▸ hl), fun _ _ e => not_isLeaf_obj (e ▸ hl)⟩

/-- A list of leaves is left alone by both loops. -/
theorem expand_of_leaves {l : List Host} (h : ∀ x ∈ l, Leaf x x) : expandL l = l ∧ replaceObjs l = l := by
  induction l with
  | nil => exact ⟨rfl, rfl⟩
  | cons a t ih =>
    obtain ⟨i1, i2⟩ := ih (fun x hx => h x (by simp [hx]))
    have hn := (h a (by simp)).ne
    cases a <;>
      first
      | exact absurd rfl (hn.1 _ _)
      | exact absurd rfl (hn.2 _ _)
      | simp [expandL, expandOne, replaceObjs, i1, i2]

theorem groupLeaf_leaf {a b c : Host} (h : GroupLeaf a b) (hl : Leaf b c) : Leaf a c := by
  induction h with
  | self => exact hl
  | group hm _ ih => exact .group hm (ih hl)

theorem leaf_via {g x : Host} (h : Leaf g x) :
    GroupLeaf g x ∨ ∃ nm a, GroupLeaf g (.obj nm a) ∧ ∃ y ∈ a, Leaf y x := by
  induction h with
  | group hm _ ih =>
    rcases ih with h | ⟨nm, a, h1, h2⟩
    · exact .inl (.group hm h)
    · exact .inr ⟨nm, a, .group hm h1, h2⟩
  | obj hm hl _ => exact .inr ⟨_, _, .self, _, hm, hl⟩
  | _ => exact .inl .self

/-- Members after expansion: exactly the leaves of the group. -/
theorem mem_expanded {nm : String} {objs : List Host} (hf : FlatObjects (.group nm objs)) (x : Host) :
    x ∈ replaceObjs (expandL objs) ↔ Leaf (.group nm objs) x := by
  rw [mem_replaceObjs]
  constructor
  · rintro (⟨h, ho⟩ | ⟨n, a, h, hx⟩)
    · rw [mem_expandL] at h
      obtain ⟨⟨m, hm, hg⟩, hx⟩ := h
      exact .group hm (groupLeaf_leaf hg (isLeaf_of hx ho))
    · rw [mem_expandL] at h
      obtain ⟨⟨m, hm, hg⟩, _⟩ := h
      have := hf n a (.group hm hg) x hx
      exact .group hm (groupLeaf_leaf hg (.obj hx this))
  · intro h
    rcases leaf_via h with hg | ⟨n, a, hg, y, hy, hyx⟩
    · have hx := h.isLeaf
      obtain ⟨n1, n2⟩ := Leaf.ne hx
      left
      refine ⟨?_, n2⟩
      rw [mem_expandL]
      cases hg with
      | self => exact absurd rfl (n1 _ _)
      | group hm hg => exact ⟨⟨_, hm, hg⟩, n1⟩
    · right
      have hyl := hf n a hg y hy
      have : x = y := isLeaf_unique hyl hyx
      subst this
      refine ⟨n, a, ?_, hy⟩
      rw [mem_expandL]
      cases hg with
      | group hm hg => exact ⟨⟨_, hm, hg⟩, by simp⟩

theorem expandL_idem (objs : List Host) : expandL (expandL objs) = expandL objs := by
  have : ∀ l : List Host, (∀ x ∈ l, ∀ nm m, x ≠ .group nm m) → expandL l = l := by
    intro l
    induction l with
    | nil => intro _; rfl
    | cons a t ih =>
      intro h
      have hn := h a (by simp)
      cases a <;> first | exact absurd rfl (hn _ _) | simp [expandL, expandOne, ih (fun x hx => h x (by simp [hx]))]
  exact this _ (fun x hx => (mem_expandL.1 hx).2)

/-! ## C23 -/

/-- **C23**, network groups.  `g.expand()` lists exactly the leaves of the group in depth-first
order (network objects replaced by their addresses), so no group and no network object is left;
expanding again changes nothing; `expand(insitu=False)` gives the same members in a new group and
leaves the original as it was. -/
theorem C23_network_expand (nm : String) (objs : List Host) (hf : FlatObjects (.group nm objs)) :
    ∃ l, NetLeaves objs l ∧ (∀ x, x ∈ l ↔ Leaf (.group nm objs) x) ∧
      netExpand true objs = (l, l) ∧ netExpand false objs = (objs, l) ∧
      netExpand true l = (l, l) ∧ netExpand false l = (l, l) ∧
      (∀ x ∈ l, (∀ n m, x ≠ .group n m) ∧ (∀ n m, x ≠ .obj n m)) := by
  have hm := mem_expanded hf
  have hleaf : ∀ x ∈ replaceObjs (expandL objs), Leaf x x := fun x hx => ((hm x).1 hx).isLeaf
  obtain ⟨e1, e2⟩ := expand_of_leaves hleaf
  refine ⟨replaceObjs (expandL objs), expandL_leaves objs, hm, rfl, ?_, ?_, ?_, fun x hx => (hleaf x hx).ne⟩
  · simp [netExpand, expandL_idem, e2]
  · simp [netExpand, e1, e2]
  · simp [netExpand, e1, e2]

mutual
theorem treeOne_leaves {α : Type} (h : GTree α) : ∀ t b, TreeLeaves t b →
    ∃ a, GTree.expandOne h = a.map .leaf ∧ TreeLeaves (h :: t) (a ++ b) := by
  cases h with
  | leaf a => intro t b hb; exact ⟨[a], rfl, .leaf hb⟩
  | group nm l =>
    intro t b hb
    obtain ⟨a, h1, h2⟩ := treeL_leaves l
    exact ⟨a, by simpa [GTree.expandOne] using h1, .group h2 hb⟩
theorem treeL_leaves {α : Type} (l : List (GTree α)) : ∃ a, GTree.expandL l = a.map .leaf ∧ TreeLeaves l a := by
  cases l with
  | nil => exact ⟨[], rfl, .nil⟩
  | cons h t =>
    obtain ⟨b, h1, h2⟩ := treeL_leaves t
    obtain ⟨a, h3, h4⟩ := treeOne_leaves h t b h2
    exact ⟨a ++ b, by simp [GTree.expandL, h1, h3], h4⟩
end

theorem expandL_map_leaf {α : Type} (a : List α) : GTree.expandL (a.map GTree.leaf) = a.map GTree.leaf := by
  induction a with
  | nil => rfl
  | cons x xs ih => simp [GTree.expandL, GTree.expandOne, ih]

/-- **C23**, protocol, ICMP (`baseExpand`) and port groups (`portExpand`). -/
theorem C23_plain_expand {α : Type} (objs : List (GTree α)) :
    ∃ a : List α, TreeLeaves objs a ∧
      baseExpand true objs = (a.map .leaf, a.map .leaf) ∧ baseExpand false objs = (objs, a.map .leaf) ∧
      portExpand true objs = (a.map .leaf, a.map .leaf) ∧ portExpand false objs = (objs, a.map .leaf) ∧
      baseExpand true (a.map GTree.leaf) = (a.map .leaf, a.map .leaf) ∧
      portExpand true (a.map GTree.leaf) = (a.map .leaf, a.map .leaf) := by
  obtain ⟨a, h1, h2⟩ := treeL_leaves objs
  refine ⟨a, h2, ?_, ?_, ?_, ?_, ?_, ?_⟩ <;> simp [baseExpand, portExpand, h1, expandL_map_leaf]

theorem replaceSvc_map {P : Type} (a : List (SvcLeaf P)) :
    replaceSvc (a.map GTree.leaf) = a.map (fun s => .leaf (.service s.value)) := by
  induction a with
  | nil => rfl
  | cons x xs ih => cases x <;> simp [replaceSvc, ih, SvcLeaf.value]

/-- **C23**, service groups: service objects become plain services with the same protocol, ports
and ICMP fields. -/
theorem C23_service_expand {P : Type} (objs : List (GTree (SvcLeaf P))) :
    ∃ a : List (SvcLeaf P), TreeLeaves objs a ∧
      let l : List (GTree (SvcLeaf P)) := (a.map SvcLeaf.value).map (fun s => .leaf (.service s))
      svcExpand true objs = (l, l) ∧ svcExpand false objs = (objs, l) ∧
      svcExpand true l = (l, l) ∧ svcExpand false l = (l, l) := by
  obtain ⟨a, h1, h2⟩ := treeL_leaves objs
  have e : (a.map SvcLeaf.value).map (fun s => (GTree.leaf (SvcLeaf.service s) : GTree (SvcLeaf P))) =
      ((a.map SvcLeaf.value).map SvcLeaf.service).map GTree.leaf := by simp
  have e2 : ∀ b : List (Service P), replaceSvc ((b.map SvcLeaf.service).map GTree.leaf) =
      (b.map SvcLeaf.service).map GTree.leaf := by
    intro b; rw [replaceSvc_map]; simp [SvcLeaf.value]
  refine ⟨a, h2, ?_⟩
  have e3 : replaceSvc (a.map GTree.leaf) = ((a.map SvcLeaf.value).map SvcLeaf.service).map GTree.leaf := by
    rw [replaceSvc_map]; simp
  simp only [e]
  refine ⟨?_, ?_, ?_, ?_⟩
  · simp only [svcExpand, h1, e3, if_true]
  · simp only [svcExpand, h1, expandL_map_leaf, e3, e2]; rfl
  · simp only [svcExpand, expandL_map_leaf, e2, if_true]
  · simp only [svcExpand, expandL_map_leaf, e2]; rfl

/-- A group whose members include a nested group (with a nested group and an object) twice. -/
example : netExpand true [Sample.grp, .any, Sample.grp] =
    (let g := [Sample.net10_1, Sample.host6, Sample.host4]; (g ++ .any :: g, g ++ .any :: g)) := rfl

/-! ## C24 -/

theorem flat_expanded {nm : String} {objs : List Host} (hf : FlatObjects (.group nm objs)) (x : Host) :
    Leaf (.group nm (netExpand true objs).2) x ↔ Leaf (.group nm objs) x := by
  rw [leaf_group]
  constructor
  · rintro ⟨h, hm, hl⟩
    have := (mem_expanded hf h).1 hm
    have e := isLeaf_unique this.isLeaf hl
    rw [e]; exact this
  · intro h
    exact ⟨x, (mem_expanded hf x).2 h, h.isLeaf⟩

theorem hasWild_expanded {nm : String} {objs : List Host} (hf : FlatObjects (.group nm objs)) :
    HasWild (.group nm (netExpand true objs).2) ↔ HasWild (.group nm objs) := by
  unfold HasWild; simp only [flat_expanded hf]

theorem covers_leaf {h : Host} {x : Addr} : Covers h x ↔ ∃ y, Leaf h y ∧ Covers y x := by
  constructor
  · intro hc
    induction hc with
    | obj hm _ ih => obtain ⟨y, h1, h2⟩ := ih; exact ⟨y, .obj hm h1, h2⟩
    | group hm _ ih => obtain ⟨y, h1, h2⟩ := ih; exact ⟨y, .group hm h1, h2⟩
    | net h => exact ⟨_, .net, .net h⟩
    | host => exact ⟨_, .host, .host⟩
    | wild h h' => exact ⟨_, .wild, .wild h h'⟩
    | any h => exact ⟨_, .any, .any h⟩
    | any4 h => exact ⟨_, .any4, .any4 h⟩
    | any6 h => exact ⟨_, .any6, .any6 h⟩
    | iface h => exact ⟨_, .iface, .iface h⟩
  · rintro ⟨y, hl, hc⟩
    induction hl with
    | obj hm _ ih => exact .obj hm (ih hc)
    | group hm _ ih => exact .group hm (ih hc)
    | _ => exact hc

/-- `a & b` eventually says True. -/
def Says (a b : Host) : Prop := ∃ fuel, meet fuel a b = .ok true

theorem meet_more_fuel {a b : Host} {r : Bool} {n m : Nat} (h : meet n a b = .ok r) (hle : n ≤ m) : meet m a b = .ok r := by
  obtain ⟨k, rfl⟩ := Nat.exists_eq_add_of_le hle
  induction k with
  | zero => exact h
  | succ k ih => exact meet_mono _ (ih (by omega))

theorem loopAny_witness {α : Type} {f : α → Py Bool} {l : List α} (h : loopAny f l = .ok true) :
    ∃ x ∈ l, f x = .ok true := by
  induction l with
  | nil => cases h
  | cons x xs ih =>
    unfold loopAny at h
    cases hx : f x with
    | error e => rw [hx] at h; cases h
    | ok b =>
      cases b with
      | true => exact ⟨x, by simp, hx⟩
      | false =>
        rw [hx] at h
        obtain ⟨y, hy, hf⟩ := ih h
        exact ⟨y, by simp [hy], hf⟩

theorem says_list {l : List Host} {b : Host} (hw : ∀ h ∈ l, ¬ (HasWild h ∧ HasWild b)) :
    (∃ fuel, loopAny (fun i => meet fuel i b) l = .ok true) ↔ ∃ h ∈ l, Says h b := by
  constructor
  · rintro ⟨fuel, h⟩
    obtain ⟨x, hx, hf⟩ := loopAny_witness h
    exact ⟨x, hx, fuel, hf⟩
  · rintro ⟨h, hm, f0, hf0⟩
    -- enough fuel for all members
    have hall : ∀ l : List Host, (∀ h ∈ l, ¬ (HasWild h ∧ HasWild b)) → ∃ N, ∀ h ∈ l, ∀ fuel, N ≤ fuel → ∃ r, meet fuel h b = .ok r := by
      intro l
      induction l with
      | nil => intro _; exact ⟨0, by simp⟩
      | cons x xs ih =>
        intro hw
        obtain ⟨N, hN⟩ := ih (fun h hh => hw h (by simp [hh]))
        obtain ⟨r, hr⟩ := C05_terminates_partial x b (hw x (by simp))
        refine ⟨max N (x.depth + b.depth + 1), ?_⟩
        intro y hy fuel hfuel
        rcases List.mem_cons.1 hy with rfl | hy
        · exact ⟨r, hr fuel (by omega)⟩
        · exact hN y hy fuel (by omega)
    obtain ⟨N, hN⟩ := hall l hw
    refine ⟨max N f0, ?_⟩
    have hg : ∀ x ∈ l, meet (max N f0) x b = .ok (match meet (max N f0) x b with | .ok r => r | .error _ => false) := by
      intro x hx
      obtain ⟨r, hr⟩ := hN x hx (max N f0) (by omega)
      rw [hr]
    rw [loopAny_ok _ _ _ hg]
    congr 1
    rw [List.any_eq_true]
    exact ⟨h, hm, by rw [meet_more_fuel hf0 (by omega)]⟩

theorem says_leaf {a b : Host} (hw : ¬ (HasWild a ∧ HasWild b)) : Says a b ↔ ∃ y, Leaf a y ∧ Says y b := by
  have key : ∀ n, ∀ a : Host, sizeOf a ≤ n → ¬ (HasWild a ∧ HasWild b) → (Says a b ↔ ∃ y, Leaf a y ∧ Says y b) := by
    intro n
    induction n with
    | zero => intro a hs; cases a <;> simp at hs <;> omega
    | succ n ih =>
      intro a hs hw
      have succ_iff : ∀ nm l, (a = .group nm l ∨ a = .obj nm l) → (Says a b ↔ ∃ fuel, loopAny (fun i => meet fuel i b) l = .ok true) := by
        intro nm l h
        constructor
        · rintro ⟨fuel, hf⟩
          cases fuel with
          | zero => cases hf
          | succ k => rcases h with rfl | rfl <;> exact ⟨k, by simpa [meet] using hf⟩
        · rintro ⟨k, hk⟩
          rcases h with rfl | rfl <;> exact ⟨k + 1, by simpa [meet] using hk⟩
      have step : ∀ nm l, (a = .group nm l ∨ a = .obj nm l) → (Says a b ↔ ∃ y, Leaf a y ∧ Says y b) := by
        intro nm l h
        have hwm : ∀ x ∈ l, ¬ (HasWild x ∧ HasWild b) := by
          rintro x hx ⟨⟨p, w, hl⟩, hb⟩
          apply hw
          refine ⟨⟨p, w, ?_⟩, hb⟩
          rcases h with rfl | rfl
          · exact .group hx hl
          · exact .obj hx hl
        rw [succ_iff nm l h, says_list hwm]
        have hle : ∀ a b, Leaf a b ↔ Leaf a b := fun _ _ => Iff.rfl
        have hl : ∀ y, Leaf a y ↔ ∃ x ∈ l, Leaf x y := by
          intro y; rcases h with rfl | rfl
          · exact leaf_group
          · exact leaf_obj
        have hsz : ∀ x ∈ l, sizeOf x ≤ n := by
          intro x hx
          have := List.sizeOf_lt_of_mem hx
          rcases h with rfl | rfl <;> simp at hs <;> omega
        constructor
        · rintro ⟨x, hx, hs⟩
          obtain ⟨y, hy, hyb⟩ := (ih x (hsz x hx) (hwm x hx)).1 hs
          exact ⟨y, (hl y).2 ⟨x, hx, hy⟩, hyb⟩
        · rintro ⟨y, hy, hyb⟩
          obtain ⟨x, hx, hxy⟩ := (hl y).1 hy
          exact ⟨x, hx, (ih x (hsz x hx) (hwm x hx)).2 ⟨y, hxy, hyb⟩⟩
      rcases leaf_or a with hl | ⟨nm, l, e⟩ | ⟨nm, l, e⟩
      · constructor
        · intro h; exact ⟨a, hl, h⟩
        · rintro ⟨y, hy, hyb⟩
          rw [isLeaf_unique hl hy] at hyb; exact hyb
      · exact step nm l (.inr e)
      · exact step nm l (.inl e)
  exact key _ a (Nat.le_refl _) hw

/-- **C24** `g & x` gives the same answer before and after `g.expand()`, for every host `x`
whatsoever (including filter keywords), unless both sides contain a wildcard. -/
theorem C24_expand_keeps_matching (nm : String) (objs : List Host) (x : Host)
    (hf : FlatObjects (.group nm objs)) (hw : ¬ (HasWild (.group nm objs) ∧ HasWild x)) :
    ∃ (r : Bool) (N : Nat), ∀ fuel, N ≤ fuel →
      meet fuel (.group nm objs) x = .ok r ∧ meet fuel (.group nm (netExpand true objs).2) x = .ok r := by
  have hw' : ¬ (HasWild (.group nm (netExpand true objs).2) ∧ HasWild x) := by
    rw [hasWild_expanded hf]; exact hw
  obtain ⟨r, hr⟩ := C05_terminates_partial _ _ hw
  obtain ⟨r', hr'⟩ := C05_terminates_partial _ _ hw'
  have hs : Says (.group nm objs) x ↔ Says (.group nm (netExpand true objs).2) x := by
    rw [says_leaf hw, says_leaf hw']; simp only [flat_expanded hf]
  have says_iff : ∀ {a b : Host} {r : Bool} {N : Nat}, (∀ fuel, N ≤ fuel → meet fuel a b = .ok r) → (Says a b ↔ r = true) := by
    intro a b r N h
    constructor
    · rintro ⟨f, hf⟩
      have h1 := meet_more_fuel hf (Nat.le_max_left f N)
      have h2 := h (max f N) (by omega)
      rw [h1] at h2; cases h2; rfl
    · rintro rfl; exact ⟨N, h N (Nat.le_refl _)⟩
  have hrr : r = r' := by
    have h1 := says_iff hr
    have h2 := says_iff hr'
    rw [hs, h2] at h1
    cases r <;> cases r' <;> simp_all
  subst hrr
  refine ⟨r, _, fun fuel hfuel => ⟨hr fuel (Nat.le_trans (Nat.le_max_left _ _) hfuel), hr' fuel (Nat.le_trans (Nat.le_max_right _ _) hfuel)⟩⟩

/-- **C24** `x & g` gives the same answer before and after `g.expand()` for ordinary `x` and `g`. -/
theorem C24_expand_keeps_matching_right (nm : String) (objs : List Host) (x : Host)
    (hf : FlatObjects (.group nm objs)) (hx : Ordinary x) (hg : Ordinary (.group nm objs))
    (w1 : ¬ (HasWild x ∧ HasWild (.group nm objs)))
    (w2 : ¬ (HasWild x ∧ HasV6 (.group nm objs))) (w3 : ¬ (HasWild (.group nm objs) ∧ HasV6 x)) :
    ∃ (r : Bool) (N : Nat), ∀ fuel, N ≤ fuel →
      meet fuel x (.group nm objs) = .ok r ∧ meet fuel x (.group nm (netExpand true objs).2) = .ok r := by
  have hl := flat_expanded hf
  have hg' : Ordinary (.group nm (netExpand true objs).2) := fun l h => hg l ((hl l).1 h)
  have hv6 : HasV6 (.group nm (netExpand true objs).2) ↔ HasV6 (.group nm objs) := by
    unfold HasV6; simp only [hl]
  have hcov : ∀ y, Covers (.group nm (netExpand true objs).2) y ↔ Covers (.group nm objs) y := by
    intro y; rw [covers_leaf, covers_leaf (h := .group nm objs)]; simp only [hl]
  refine ⟨decide (HasAny x ∨ ∃ y, Covers x y ∧ Covers (.group nm objs) y) (h := Classical.propDecidable _),
    x.depth + (Host.group nm objs).depth + (Host.group nm (netExpand true objs).2).depth + 1, ?_⟩
  intro fuel hfuel
  obtain ⟨r, h1, h2⟩ := C01_host_matching_with_wildcard x (.group nm objs) fuel hx hg w1 w2 w3 (by omega)
  obtain ⟨r', h1', h2'⟩ := C01_host_matching_with_wildcard x (.group nm (netExpand true objs).2) fuel hx hg'
    (by rw [hasWild_expanded hf]; exact w1) (by rw [hv6]; exact w2) (by rw [hasWild_expanded hf]; exact w3) (by omega)
  simp only [hcov] at h2'
  rw [h1, h1']
  constructor
  · congr 1
    cases r <;> simp_all
  · congr 1
    cases r' <;> simp_all

/-- **C24**, the exception: `ANY & g` can change from False to True (an fqdn object inside the group
denotes `any`, but only expansion brings that `any` into the group itself) … -/
theorem C24_any_filter_can_grow :
    ∃ objs : List Host, FlatObjects (.group "g" objs) ∧
      meet 5 .cafAny (.group "g" objs) = .ok false ∧
      meet 5 .cafAny (.group "g" (netExpand true objs).2) = .ok true := by
  refine ⟨[.obj "f" [.any]], ?_, rfl, rfl⟩
  intro nm l h
  cases h with
  | group hm hg =>
    simp at hm; subst hm
    cases hg
    intro h hh; simp at hh; subst hh; exact .any

/-- … but never from True to False. -/
theorem C24_any_filter_never_shrinks (nm : String) (objs : List Host) (hf : FlatObjects (.group nm objs))
    (h1 : ¬ Leaf (.group nm objs) .cafAny)
    (fuel fuel' : Nat) (hfuel : (Host.group nm (netExpand true objs).2).depth ≤ fuel')
    (hT : meet fuel .cafAny (.group nm objs) = .ok true) :
    meet fuel' .cafAny (.group nm (netExpand true objs).2) = .ok true := by
  have hT' := meet_more_fuel hT (Nat.le_max_left fuel (Host.group nm objs).depth)
  obtain ⟨r, e, hr⟩ := cafAny_main (b := .group nm objs) (max fuel (Host.group nm objs).depth) (by omega)
  rw [hT'] at e; cases e
  have hg := hr.1 rfl
  obtain ⟨r', e', hr'⟩ := cafAny_main (b := .group nm (netExpand true objs).2) fuel' hfuel
  rw [e']
  congr 1
  rw [hr']
  rcases hg with hg | hg
  · left
    have : Leaf (.group nm objs) .any := groupLeaf_leaf hg .any
    exact .group ((mem_expanded hf .any).2 this) .self
  · exact absurd (groupLeaf_leaf hg .cafAny) h1

example : FlatObjects (.group "g" [Sample.grp]) ∧ ¬ HasWild (.group "g" [Sample.grp]) := by
  constructor
  · intro nm l h
    cases h with
    | group hm hg =>
      simp at hm; subst hm
      cases hg with
      | group hm hg =>
        simp only [List.mem_cons, List.not_mem_nil, or_false] at hm
        rcases hm with rfl | rfl
        · cases hg with
          | group hm hg =>
            simp only [List.mem_cons, List.not_mem_nil, or_false] at hm
            rcases hm with rfl | rfl <;> cases hg
        · cases hg
          intro h hh; simp at hh; subst hh; exact .host
  · rintro ⟨a, w, h⟩
    rw [leaf_group] at h
    obtain ⟨x, hx, hl⟩ := h
    simp at hx; subst hx
    exact Sample.nowild_grp ⟨a, w, hl⟩

end Acltk
