import Verif.Spec.ExpandSpec
import Verif.Props.Groups
import Verif.Props.GroupHeap
import Verif.Props.Caf
/-!
# C92: expanding the groups of a configuration before filtering it
-/
namespace Acltk.ExpandFilter
open Acltk Acltk.Caf

/-! ## hosts -/

theorem netLeaves_eq {l a : List Host} (h : NetLeaves l a) : a = replaceObjs (expandL l) := by
  have app : ∀ x y : List Host, replaceObjs (x ++ y) = replaceObjs x ++ replaceObjs y := by
    intro x y
    induction x with
    | nil => rfl
    | cons h t ih => cases h <;> simp [replaceObjs, ih]
  induction h with
  | nil => rfl
  | group _ _ i1 i2 => simp [expandL, expandOne, app, i1, i2]
  | obj _ ih => simp [expandL, expandOne, replaceObjs, ih]
  | @other h _ _ h1 h2 _ ih =>
    cases h <;> first | exact absurd rfl (h1 _ _) | exact absurd rfl (h2 _ _) | simp [expandL, expandOne, replaceObjs, ih]

theorem flat_mem {nm : String} {l : List Host} {m : Host} (hf : FlatObjects (.group nm l)) (hm : m ∈ l) : FlatObjects m :=
  fun n a h => hf n a (.group hm h)

mutual
theorem leaf_expands {h h' : Host} (he : Expands h h') (hf : FlatObjects h) (x : Host) : Leaf h x ↔ Leaf h' x := by
  cases he with
  | same => exact Iff.rfl
  | @expanded nm l l' hn =>
    rw [netLeaves_eq hn]
    exact (flat_expanded hf x).symm
  | @inside nm l l' hl =>
    rw [leaf_group, leaf_group]
    exact leaf_expandsL hl (fun m hm => flat_mem hf hm) x
theorem leaf_expandsL {l l' : List Host} (he : ExpandsL l l') (hf : ∀ m ∈ l, FlatObjects m) (x : Host) :
    (∃ h ∈ l, Leaf h x) ↔ ∃ h ∈ l', Leaf h x := by
  cases he with
  | nil => exact Iff.rfl
  | @cons h h' l l' h1 h2 =>
    have i1 := leaf_expands h1 (hf h (by simp)) x
    have i2 := leaf_expandsL h2 (fun m hm => hf m (by simp [hm])) x
    simp only [List.mem_cons, exists_eq_or_imp]
    rw [i1, i2]
end

theorem depth_leaf {x : Host} (h : Leaf x x) : x.depth = 1 := by
  obtain ⟨h1, h2⟩ := h.ne
  cases x <;> first | exact absurd rfl (h1 _ _) | exact absurd rfl (h2 _ _) | rfl

mutual
theorem depth_expands {h h' : Host} (he : Expands h h') (hf : FlatObjects h) : h'.depth ≤ h.depth := by
  cases he with
  | same => exact Nat.le_refl _
  | @expanded nm l l' hn =>
    simp only [Host.depth]
    refine Nat.add_le_add_left (depthList_le fun a ha => ?_) 1
    rw [netLeaves_eq hn] at ha
    have hl := (mem_expanded hf a).1 ha
    rw [depth_leaf hl.isLeaf]
    obtain ⟨m, hm, -⟩ := leaf_group.1 hl
    exact Nat.le_trans (depth_pos m) (depth_mem hm)
  | @inside nm l l' hl =>
    simp only [Host.depth]
    exact Nat.add_le_add_left (depth_expandsL hl (fun m hm => flat_mem hf hm)) 1
theorem depth_expandsL {l l' : List Host} (he : ExpandsL l l') (hf : ∀ m ∈ l, FlatObjects m) :
    Host.depthList l' ≤ Host.depthList l := by
  cases he with
  | nil => exact Nat.le_refl _
  | @cons h h' l l' h1 h2 =>
    have i1 := depth_expands h1 (hf h (by simp))
    have i2 := depth_expandsL h2 (fun m hm => hf m (by simp [hm]))
    simp only [Host.depthList]
    omega
end

/-- A leaf that can be reached through groups. -/
theorem groupLeaf_iff {h k : Host} (hk : Leaf k k) (hn : ∀ nm l, GroupLeaf h (.obj nm l) → ¬ Leaf (.obj nm l) k) :
    GroupLeaf h k ↔ Leaf h k := by
  constructor
  · intro hg; exact groupLeaf_leaf hg hk
  · intro hl
    rcases leaf_via hl with h1 | ⟨nm, a, h1, y, hy, hyk⟩
    · exact h1
    · exact absurd (.obj hy hyk) (hn _ _ h1)

mutual
/-- Only objects that were there before are there afterwards, and leaves in groups stay. -/
theorem groupLeaf_expands {h h' : Host} (he : Expands h h') (hf : FlatObjects h) :
    (∀ k, Leaf k k → GroupLeaf h k → GroupLeaf h' k) ∧ ∀ nm l, GroupLeaf h' (.obj nm l) → GroupLeaf h (.obj nm l) := by
  cases he with
  | same => exact ⟨fun _ _ h => h, fun _ _ h => h⟩
  | @expanded nm l l' hn =>
    rw [netLeaves_eq hn]
    constructor
    · intro k hk hg
      exact .group ((mem_expanded hf k).2 (groupLeaf_leaf hg hk)) .self
    · intro n a hg
      cases hg with
      | group hm hg =>
        have hl := ((mem_expanded hf _).1 hm).isLeaf
        cases hg with
        | self => exact absurd hl not_isLeaf_obj
        | group => exact absurd hl not_isLeaf_group
  | @inside nm l l' hl =>
    obtain ⟨i1, i2⟩ := groupLeaf_expandsL hl (fun m hm => flat_mem hf hm)
    constructor
    · intro k hk hg
      cases hg with
      | self => exact absurd hk not_isLeaf_group
      | group hm hg =>
        obtain ⟨m', hm', hg'⟩ := i1 k hk ⟨_, hm, hg⟩
        exact .group hm' hg'
    · intro n a hg
      cases hg with
      | group hm hg =>
        obtain ⟨m', hm', hg'⟩ := i2 n a ⟨_, hm, hg⟩
        exact .group hm' hg'
theorem groupLeaf_expandsL {l l' : List Host} (he : ExpandsL l l') (hf : ∀ m ∈ l, FlatObjects m) :
    (∀ k, Leaf k k → (∃ m ∈ l, GroupLeaf m k) → ∃ m ∈ l', GroupLeaf m k) ∧
      ∀ nm a, (∃ m ∈ l', GroupLeaf m (.obj nm a)) → ∃ m ∈ l, GroupLeaf m (.obj nm a) := by
  cases he with
  | nil => exact ⟨fun _ _ h => h, fun _ _ h => h⟩
  | @cons h h' l l' h1 h2 =>
    obtain ⟨i1, i2⟩ := groupLeaf_expands h1 (hf h (by simp))
    obtain ⟨j1, j2⟩ := groupLeaf_expandsL h2 (fun m hm => hf m (by simp [hm]))
    constructor
    · rintro k hk ⟨m, hm, hg⟩
      rcases List.mem_cons.1 hm with rfl | hm
      · exact ⟨h', by simp, i1 k hk hg⟩
      · obtain ⟨m', hm', hg'⟩ := j1 k hk ⟨m, hm, hg⟩
        exact ⟨m', by simp [hm'], hg'⟩
    · rintro nm a ⟨m, hm, hg⟩
      rcases List.mem_cons.1 hm with rfl | hm
      · exact ⟨h, by simp, i2 nm a hg⟩
      · obtain ⟨m', hm', hg'⟩ := j2 nm a ⟨m, hm, hg⟩
        exact ⟨m', by simp [hm'], hg'⟩
end

/-! ## what a filter host says -/

theorem says_any (h : Host) : Says .any h := ⟨1, rfl⟩
theorem says_iface (nm : String) (h : Host) : Says (.iface nm) h := ⟨1, rfl⟩

/-- An address or `any4`, `any6` hands the question to the group. -/
theorem says_swap {y : Host} (hy : (∃ a, y = .host a) ∨ (∃ n, y = .net n) ∨ y = .any4 ∨ y = .any6) (nm : String) (l : List Host) :
    Says y (.group nm l) ↔ Says (.group nm l) y := by
  have step : ∀ f, meet (f + 1) y (.group nm l) = meet f (.group nm l) y := by
    intro f
    rcases hy with ⟨a, rfl⟩ | ⟨n, rfl⟩ | rfl | rfl <;> rfl
  constructor
  · rintro ⟨f, hf⟩
    cases f with
    | zero => cases hf
    | succ f => rw [step] at hf; exact ⟨f, hf⟩
  · rintro ⟨f, hf⟩
    exact ⟨f + 1, by rw [step]; exact hf⟩

theorem answers_says {a b : Host} {p : Prop} (h : ∀ fuel, b.depth ≤ fuel → Answers (meet fuel a b) p) : Says a b ↔ p := by
  constructor
  · rintro ⟨f, hf⟩
    obtain ⟨r, e, hr⟩ := h (max f b.depth) (Nat.le_max_right _ _)
    rw [meet_more_fuel hf (Nat.le_max_left _ _)] at e
    cases e
    exact hr.1 rfl
  · intro hp
    obtain ⟨r, e, hr⟩ := h b.depth (Nat.le_refl _)
    rw [hr.2 hp] at e
    exact ⟨_, e⟩

theorem says_key {h h' : Host} (he : Expands h h') (hf : FlatObjects h) {k c : Host} (hk : Leaf k k) (hc : Leaf c c)
    (hn : ∀ nm l, GroupLeaf h (.obj nm l) → k ∉ l ∧ c ∉ l) :
    GroupLeaf h k ∨ GroupLeaf h c ↔ GroupLeaf h' k ∨ GroupLeaf h' c := by
  have no : ∀ {x : Host}, (x = k ∨ x = c) → ∀ nm l, GroupLeaf h (.obj nm l) → ¬ Leaf (.obj nm l) x := by
    intro x hx nm l hg hl
    cases hl with
    | obj hm hl =>
      rw [← isLeaf_unique (hf nm l hg _ hm) hl] at hm
      rcases hx with rfl | rfl
      · exact (hn nm l hg).1 hm
      · exact (hn nm l hg).2 hm
  have e : ∀ {x : Host}, Leaf x x → (x = k ∨ x = c) → (GroupLeaf h x ↔ GroupLeaf h' x) := by
    intro x hx hxe
    rw [groupLeaf_iff hx (no hxe), groupLeaf_iff hx (fun nm l hg => no hxe nm l ((groupLeaf_expands he hf).2 nm l hg)),
      leaf_expands he hf]
  rw [e hk (Or.inl rfl), e hc (Or.inr rfl)]

/-- What a filter says of a host is not changed by the expansion of groups. -/
theorem says_expands {f h h' : Host} (hw : ¬ HasWild f) (he : Expands h h') (hf : FlatObjects h)
    (hk : (∀ k ∈ [Host.cafAny, .cafAny4, .cafAny6], ¬ Leaf f k) ∨ NoAnyObject h) : Says f h ↔ Says f h' := by
  rw [says_leaf (fun h => hw h.1), says_leaf (fun h => hw h.1)]
  have key : ∀ y, Leaf f y → (Says y h ↔ Says y h') := by
    intro y hy
    have grp : ((∃ a, y = .host a) ∨ (∃ n, y = .net n) ∨ y = .any4 ∨ y = .any6) → (Says y h ↔ Says y h') := by
      intro hy'
      have hyw : ∀ z, ¬ (HasWild z ∧ HasWild y) := by
        rintro z ⟨-, a, w, hl⟩
        rcases hy' with ⟨a, rfl⟩ | ⟨n, rfl⟩ | rfl | rfl <;> cases hl
      have hl := leaf_expands he hf
      cases he with
      | same => exact Iff.rfl
      | expanded =>
        rw [says_swap hy', says_swap hy', says_leaf (hyw _), says_leaf (hyw _)]
        simp only [hl]
      | inside =>
        rw [says_swap hy', says_swap hy', says_leaf (hyw _), says_leaf (hyw _)]
        simp only [hl]
    have hyy := hy.isLeaf
    cases y with
    | group => exact absurd hyy not_isLeaf_group
    | obj => exact absurd hyy not_isLeaf_obj
    | wild a w => exact absurd ⟨a, w, hy⟩ hw
    | any => exact ⟨fun _ => says_any _, fun _ => says_any _⟩
    | iface nm => exact ⟨fun _ => says_iface _ _, fun _ => says_iface _ _⟩
    | host a => exact grp (Or.inl ⟨a, rfl⟩)
    | net n => exact grp (Or.inr (Or.inl ⟨n, rfl⟩))
    | any4 => exact grp (Or.inr (Or.inr (Or.inl rfl)))
    | any6 => exact grp (Or.inr (Or.inr (Or.inr rfl)))
    | cafAny =>
      rcases hk with hk | hk
      · exact absurd hy (hk _ (by simp))
      · rw [answers_says fun f hf => cafAny_main f hf, answers_says fun f hf => cafAny_main f hf]
        exact says_key he hf .any .cafAny fun nm l hg => ⟨(hk nm l hg).1, (hk nm l hg).2.2.2.1⟩
    | cafAny4 =>
      rcases hk with hk | hk
      · exact absurd hy (hk _ (by simp))
      · rw [answers_says fun f hf => cafAny4_main f hf, answers_says fun f hf => cafAny4_main f hf]
        exact says_key he hf .any4 .cafAny4 fun nm l hg => ⟨(hk nm l hg).2.1, (hk nm l hg).2.2.2.2.1⟩
    | cafAny6 =>
      rcases hk with hk | hk
      · exact absurd hy (hk _ (by simp))
      · rw [answers_says fun f hf => cafAny6_main f hf, answers_says fun f hf => cafAny6_main f hf]
        exact says_key he hf .any6 .cafAny6 fun nm l hg => ⟨(hk nm l hg).2.2.1, (hk nm l hg).2.2.2.2.2⟩
  constructor
  · rintro ⟨y, hy, hs⟩; exact ⟨y, hy, (key y hy).1 hs⟩
  · rintro ⟨y, hy, hs⟩; exact ⟨y, hy, (key y hy).2 hs⟩

/-! ## rules and NAT entries -/

/-- A node that has changed or not. -/
theorem node_hit {src : Host → Prop} {a b : Option (Option Host)} (hn : NodeExpands a b)
    (hs : ∀ h h', a = some (some h) → Expands h h' → (src h ↔ src h')) :
    ((∃ h, a = some (some h)) ↔ ∃ h, b = some (some h)) ∧
      ((∀ h, a = some (some h) → src h) ↔ ∀ h, b = some (some h) → src h) := by
  rcases a with _ | _ | h <;> rcases b with _ | _ | h' <;> simp only [NodeExpands] at hn <;> first | cases hn; done | skip
  · simp
  · simp
  · simp only [Option.some.injEq]
    exact ⟨⟨fun _ => ⟨h', rfl⟩, fun _ => ⟨h, rfl⟩⟩, ⟨fun x y e => e ▸ (hs h h' rfl hn).1 (x h rfl),
      fun x y e => e ▸ (hs h h' rfl hn).2 (x h' rfl)⟩⟩

theorem side_hit {src dst : Host → Prop} {a b : NatSide} (hn : SideExpands (some a) (some b))
    (hs : ∀ h h', (a.src = some (some h) ∨ a.dst = some (some h)) → Expands h h' → (src h ↔ src h') ∧ (dst h ↔ dst h')) :
    SideHit src dst a ↔ SideHit src dst b := by
  obtain ⟨h1, h2⟩ := hn
  obtain ⟨i1, i2⟩ := node_hit (src := src) h1 fun h h' e x => (hs h h' (Or.inl e) x).1
  obtain ⟨j1, j2⟩ := node_hit (src := dst) h2 fun h h' e x => (hs h h' (Or.inr e) x).2
  unfold SideHit
  rw [i1, i2, j1, j2]

theorem sides {src dst : Host → Prop} {a b : Option NatSide} (hn : SideExpands a b)
    (hs : ∀ s, a = some s → ∀ h h', (s.src = some (some h) ∨ s.dst = some (some h)) → Expands h h' → (src h ↔ src h') ∧ (dst h ↔ dst h')) :
    (∃ s, a = some s ∧ SideHit src dst s) ↔ ∃ s, b = some s ∧ SideHit src dst s := by
  rcases a with _ | a <;> rcases b with _ | b <;> simp only [SideExpands] at hn <;> first | cases hn; done | skip
  · exact Iff.rfl
  · have := side_hit (a := a) (b := b) hn (hs a rfl)
    simp [this]

theorem selects_expands {id : Option String} {src dst : Host → Prop} {x x' : Entry} (hx : EntryExpands x x')
    (hs : ∀ h h', HostOf h x → Expands h h' → (src h ↔ src h') ∧ (dst h ↔ dst h')) :
    Selects id src dst x ↔ Selects id src dst x' := by
  cases x with
  | rule r =>
    cases x' with
    | nat => cases hx
    | rule r' =>
      obtain ⟨h1, h2, h3⟩ := hx
      simp only [Selects]
      rw [h1, (hs _ _ (Or.inl rfl) h2).1, (hs _ _ (Or.inr rfl) h3).2]
  | nat n =>
    cases x' with
    | rule => cases hx
    | nat n' =>
      simp only [Selects]
      rw [sides hx.1 fun s e h h' hh => hs h h' ⟨s, Or.inl e, hh⟩, sides hx.2 fun s e h h' hh => hs h h' ⟨s, Or.inr e, hh⟩]

theorem sel_expands {K : Nat} {e : Expr} {x x' : Entry} (hf : ∀ f, RuleIn f e → FilterRule K f) (hx : EntryExpands x x')
    (hflat : ∀ h, HostOf h x → FlatObjects h) (hk : NoKeyword e ∨ ∀ h, HostOf h x → NoAnyObject h) : Sel e x ↔ Sel e x' := by
  induction e with
  | rule f =>
    simp only [Sel]
    obtain ⟨-, w1, w2, -, -⟩ := hf f .rule
    refine selects_expands hx fun h h' hh hE => ⟨says_expands w1 hE (hflat h hh) ?_, says_expands w2 hE (hflat h hh) ?_⟩
    · rcases hk with hk | hk
      · exact Or.inl fun k hm => (hk f .rule k hm).1
      · exact Or.inr (hk h hh)
    · rcases hk with hk | hk
      · exact Or.inl fun k hm => (hk f .rule k hm).2
      · exact Or.inr (hk h hh)
  | block e ih => exact ih (fun f h => hf f (.block h)) (hk.imp (fun hk f h => hk f (.block h)) id)
  | op o a b i1 i2 =>
    have i1 := i1 (fun f h => hf f (.opl h)) (hk.imp (fun hk f h => hk f (.opl h)) id)
    have i2 := i2 (fun f h => hf f (.opr h)) (hk.imp (fun hk f h => hk f (.opr h)) id)
    cases o <;> simp only [Sel, i1, i2]

theorem node_depth {D : Nat} {a b : Option (Option Host)} (hn : NodeExpands a b) (hf : ∀ h, a = some (some h) → FlatObjects h)
    (hd : ∀ h, a = some (some h) → h.depth ≤ D) : ∀ h, b = some (some h) → h.depth ≤ D := by
  rcases a with _ | _ | h <;> rcases b with _ | _ | h' <;> simp only [NodeExpands] at hn <;> first | cases hn; done | skip
  · exact hd
  · exact hd
  · intro x e
    cases e
    exact Nat.le_trans (depth_expands hn (hf h rfl)) (hd h rfl)

theorem entry_expands {D : Nat} {x x' : Entry} (hx : EntryExpands x x') (hflat : ∀ h, HostOf h x → FlatObjects h)
    (ho : EntryOk x) (hd : EntryDepth D x) : EntryOk x' ∧ EntryDepth D x' := by
  cases x with
  | rule r =>
    cases x' with
    | nat => cases hx
    | rule r' =>
      obtain ⟨h1, h2, h3⟩ := hx
      refine ⟨?_, Nat.le_trans (depth_expands h2 (hflat _ (Or.inl rfl))) hd.1, Nat.le_trans (depth_expands h3 (hflat _ (Or.inr rfl))) hd.2⟩
      simp only [EntryOk] at ho ⊢
      rw [h1]; exact ho
  | nat n =>
    cases x' with
    | rule => cases hx
    | nat n' =>
      obtain ⟨h1, h2⟩ := hx
      obtain ⟨real, mapped, _, _⟩ := n
      obtain ⟨real', mapped', _, _⟩ := n'
      simp only [EntryOk, EntryDepth] at ho hd ⊢
      obtain ⟨o1, o2⟩ := ho
      rcases real with _ | a <;> rcases mapped with _ | b <;> simp at o1 o2
      rcases real' with _ | a' <;> rcases mapped' with _ | b' <;> simp only [SideExpands] at h1 h2 <;>
        first | cases h1; done | cases h2; done | skip
      refine ⟨⟨rfl, rfl⟩, ?_⟩
      intro s hs
      rcases hs with hs | hs <;> cases hs
      · rintro h (hh | hh)
        · exact node_depth h1.1 (fun h e => hflat h ⟨a, Or.inl rfl, Or.inl e⟩) (fun h e => hd a (Or.inl rfl) h (Or.inl e)) h hh
        · exact node_depth h1.2 (fun h e => hflat h ⟨a, Or.inl rfl, Or.inr e⟩) (fun h e => hd a (Or.inl rfl) h (Or.inr e)) h hh
      · rintro h (hh | hh)
        · exact node_depth h2.1 (fun h e => hflat h ⟨b, Or.inr rfl, Or.inl e⟩) (fun h e => hd b (Or.inr rfl) h (Or.inl e)) h hh
        · exact node_depth h2.2 (fun h e => hflat h ⟨b, Or.inr rfl, Or.inr e⟩) (fun h e => hd b (Or.inr rfl) h (Or.inr e)) h hh

/-- **C92.** Filtering a configuration after groups have been expanded (`heap'`) delivers the same rules and NAT entries as
filtering it before (`heap`), and needs no more stack, unless the filter uses `ANY`, `ANY4` or `ANY6` and a group has a network object that stands
for everything. -/
theorem C92_expand_keeps_selection_partial (K D fuel : Nat) (heap heap' : Oid → Entry) (rules n1 n2 n3 : List Oid) (e : Expr)
    (he : Runnable e) (hf : ∀ f, RuleIn f e → FilterRule K f)
    (hx : ∀ o ∈ rules ++ n1 ++ n2 ++ n3, EntryOk (heap o))
    (hd : ∀ o ∈ rules ++ n1 ++ n2 ++ n3, EntryDepth D (heap o))
    (hfuel : e.height + K + D + 6 ≤ fuel)
    (hflat : ∀ o ∈ rules ++ n1 ++ n2 ++ n3, ∀ h, HostOf h (heap o) → FlatObjects h)
    (hexp : ∀ o ∈ rules ++ n1 ++ n2 ++ n3, EntryExpands (heap o) (heap' o))
    (hk : NoKeyword e ∨ ∀ o ∈ rules ++ n1 ++ n2 ++ n3, ∀ h, HostOf h (heap o) → NoAnyObject h) :
    ∃ r r', configFilter fuel heap rules (n1, n2, n3) e = .ok r ∧ configFilter fuel heap' rules (n1, n2, n3) e = .ok r' ∧
      r.Perm r' := by
  obtain ⟨r, h1, h2, h3⟩ := C18_config_filter K D fuel heap rules n1 n2 n3 e he hf hx hd hfuel
  obtain ⟨r', i1, i2, i3⟩ := C18_config_filter K D fuel heap' rules n1 n2 n3 e he hf
    (fun o ho => (entry_expands (hexp o ho) (hflat o ho) (hx o ho) (hd o ho)).1)
    (fun o ho => (entry_expands (hexp o ho) (hflat o ho) (hx o ho) (hd o ho)).2) hfuel
  refine ⟨r, r', h1, i1, ?_⟩
  rw [List.perm_ext_iff_of_nodup h2 i2]
  intro o
  rw [h3, i3]
  refine and_congr_right fun ho => sel_expands (K := K) hf (hexp o ?_) (hflat o ?_) (hk.imp id fun hk => hk o ?_) <;>
    simpa [or_assoc] using ho

/-! ## the groups of a configuration -/

/-- The members of a group, read from the objects of the configuration: shared groups are read wherever they occur. -/
inductive Reads (heap : Heap Host) (name : Nat → String) : List (Mem Host) → List Host → Prop
  | nil : Reads heap name [] []
  | item {a t l} : (∀ nm m, a ≠ .group nm m) → Reads heap name t l → Reads heap name (.item a :: t) (a :: l)
  | ref {g t m l} : Reads heap name (heap g) m → Reads heap name t l → Reads heap name (.ref g :: t) (.group (name g) m :: l)

theorem reads_leaves {heap : Heap Host} {name : Nat → String} {ms : List (Mem Host)} {l : List Host} (h : Reads heap name ms l) :
    ∀ {a : List Host}, HeapLeaves heap ms a → NetLeaves l (a.flatMap finNet) := by
  induction h with
  | nil => intro a ha; cases ha; exact .nil
  | @item x t l hx _ ih =>
    intro a ha
    cases ha with
    | item ht =>
      have := ih ht
      cases x <;> first | exact absurd rfl (hx _ _) | exact .obj this | exact .other (by simp) (by simp) this
  | ref _ _ i1 i2 =>
    intro a ha
    cases ha with
    | ref h1 h2 =>
      rw [List.flatMap_append]
      exact .group (i1 h1) (i2 h2)

theorem reads_items (heap : Heap Host) (name : Nat → String) (l : List Host) (hl : ∀ x ∈ l, ∀ nm m, x ≠ .group nm m) :
    Reads heap name (l.map .item) l := by
  induction l with
  | nil => exact .nil
  | cons x l ih => exact .item (hl x (by simp)) (ih fun y hy => hl y (by simp [hy]))

theorem reads_noGroup {heap : Heap Host} {name : Nat → String} {ms : List (Mem Host)} {l : List Host}
    (hfin : ∀ g nm l, Mem.item (.obj nm l) ∈ heap g → ∀ x ∈ l, Leaf x x) (h : Reads heap name ms l) :
    (∀ nm l, Mem.item (.obj nm l) ∈ ms → ∀ x ∈ l, Leaf x x) → ∀ {a : List Host}, HeapLeaves heap ms a →
    ∀ x ∈ a.flatMap finNet, ∀ nm m, x ≠ .group nm m := by
  induction h with
  | nil => intro _ a ha; cases ha; simp
  | @item y t l hy _ ih =>
    intro hq a ha x hx
    cases ha with
    | item ht =>
      rw [List.flatMap_cons, List.mem_append] at hx
      rcases hx with hx | hx
      · by_cases ho : ∃ nm l, y = .obj nm l
        · obtain ⟨nm, l, rfl⟩ := ho
          exact (hq nm l (by simp) x hx).ne.1
        · have : finNet y = [y] := by cases y <;> first | exact absurd ⟨_, _, rfl⟩ ho | rfl
          rw [this] at hx
          simp at hx
          subst hx
          exact hy
      · exact ih (fun nm l h => hq nm l (by simp [h])) ht x hx
  | @ref g _ _ _ _ _ i1 i2 =>
    intro hq a ha x hx
    cases ha with
    | ref h1 h2 =>
      rw [List.flatMap_append, List.mem_append] at hx
      rcases hx with hx | hx
      · exact i1 (fun nm l h => hfin g nm l h) h1 x hx
      · exact i2 (fun nm l h => hq nm l (by simp [h])) h2 x hx

/-- **C92**, what `ACLConfig.expand` does to the hosts of a configuration: whatever the order in which the groups of the table are
visited, it never raises, and every member list that was read from the group objects before reads `Expands`-ed afterwards. -/
theorem C92_expand_expands (heap : Heap Host) (name : Nat → String) (rank : Nat → Nat) (ha : Acyclic heap rank) (fuel : Nat)
    (order : List Nat) (hf : ∀ g ∈ order, rank g < fuel)
    (hfin : ∀ g nm l, Mem.item (.obj nm l) ∈ heap g → ∀ x ∈ l, Leaf x x) :
    ∃ heap', expandAll finNet fuel heap order = (heap', .ok ()) ∧
      ∀ ms l, Reads heap name ms l → ∃ l', Reads heap' name ms l' ∧ ExpandsL l l' := by
  have fin1 : ∀ x : Host, Leaf x x → finNet x = [x] := by
    intro x hx
    obtain ⟨-, h2⟩ := hx.ne
    cases x <;> first | exact absurd rfl (h2 _ _) | rfl
  have finfin : ∀ g a, Mem.item a ∈ heap g → ∀ b ∈ finNet a, finNet b = [b] := by
    intro g a hm b hb
    by_cases ho : ∃ nm l, a = .obj nm l
    · obtain ⟨nm, l, rfl⟩ := ho
      exact fin1 b (hfin g nm l hm b hb)
    · have : finNet a = [a] := by cases a <;> first | exact absurd ⟨_, _, rfl⟩ ho | rfl
      rw [this] at hb
      simp at hb
      subst hb
      exact this
  obtain ⟨heap', h1, h2, h3⟩ := C25_every_group_gets_its_leaves finNet heap finfin rank ha fuel order hf
  refine ⟨heap', h1, ?_⟩
  intro ms l hr
  induction hr with
  | nil => exact ⟨[], .nil, .nil⟩
  | item hx _ ih =>
    obtain ⟨l', i1, i2⟩ := ih
    exact ⟨_, .item hx i1, .cons (.same _) i2⟩
  | @ref g t m l hm _ i1 i2 =>
    obtain ⟨l', j1, j2⟩ := i2
    obtain ⟨m', k1, k2⟩ := i1
    by_cases hg : g ∈ order
    · obtain ⟨a, hl, e⟩ := h2 g hg
      have hn := reads_leaves hm hl
      refine ⟨_, .ref (m := a.flatMap finNet) ?_ j1, .cons (.expanded hn) j2⟩
      rw [e]
      apply reads_items
      exact reads_noGroup hfin hm (fun nm l h => hfin g nm l h) hl
    · refine ⟨_, .ref (m := m') ?_ j1, .cons (.inside k2) j2⟩
      rw [h3 g hg]; exact k1

/-! ## a configuration -/

namespace Sample

/-- Group 0 lists an object of two networks and group 1; group 1 lists a host. -/
def groups : Heap Host
  | 0 => [.item (.obj "o" [.net ⟨.v4, 0x0A000000, 8⟩, .net ⟨.v4, 0xC0A80000, 16⟩]), .ref 1]
  | 1 => [.item (.host ⟨.v4, 0x01020304⟩)]
  | _ => []

def name : Nat → String
  | 0 => "outer"
  | _ => "inner"

def inner : Host := .group "inner" [.host ⟨.v4, 0x01020304⟩]

def before : List Host := [.obj "o" [.net ⟨.v4, 0x0A000000, 8⟩, .net ⟨.v4, 0xC0A80000, 16⟩], inner]

def after : List Host := [.net ⟨.v4, 0x0A000000, 8⟩, .net ⟨.v4, 0xC0A80000, 16⟩, .host ⟨.v4, 0x01020304⟩]

theorem reads : Reads groups name (groups 0) before :=
  .item (by simp) (.ref (g := 1) (.item (by simp) .nil) .nil)

theorem acyclic : Acyclic groups (fun g => 2 - g) := by
  intro g g' h
  match g with
  | 0 => simp [groups] at h; subst h; decide
  | 1 => simp [groups] at h
  | n + 2 => simp [groups] at h

theorem flat : ∀ g nm l, Mem.item (.obj nm l) ∈ groups g → ∀ x ∈ l, Leaf x x := by
  intro g nm l h
  match g with
  | 0 => simp [groups] at h; obtain ⟨-, rfl⟩ := h; simp only [List.mem_cons, List.not_mem_nil, or_false]; rintro x (rfl | rfl) <;> exact .net
  | 1 => simp [groups] at h
  | n + 2 => simp [groups] at h

/-- One rule from `any` to the group. -/
def rule (l : List Host) : Entry := .rule { src := ⟨.any, none⟩, dst := ⟨.group "outer" l, none⟩ }

/-- `ip dst 10.1.0.0/16` -/
def filter (h : Host) : Expr := .block (.rule { src := ⟨.any, none⟩, dst := ⟨.group "" [h], none⟩ })

end Sample

/-- The hypotheses of C92 are met by a configuration with nested groups and an object of two networks, and the rule is selected. -/
theorem C92_sample :
    (∃ heap', expandAll finNet 5 Sample.groups [0, 1] = (heap', .ok ()) ∧ Reads heap' Sample.name (heap' 0) Sample.after) ∧
    EntryExpands (Sample.rule Sample.before) (Sample.rule Sample.after) ∧
    (∀ h, HostOf h (Sample.rule Sample.before) → FlatObjects h ∧ NoAnyObject h) ∧
    configFilter 20 (fun _ => Sample.rule Sample.before) [7] ([], [], []) (Sample.filter (.net ⟨.v4, 0x0A010000, 16⟩)) = .ok [7] ∧
    configFilter 20 (fun _ => Sample.rule Sample.after) [7] ([], [], []) (Sample.filter (.net ⟨.v4, 0x0A010000, 16⟩)) = .ok [7] := by
  have hobj : ∀ h, HostOf h (Sample.rule Sample.before) → ∀ nm l, GroupLeaf h (.obj nm l) →
      l = [.net ⟨.v4, 0x0A000000, 8⟩, .net ⟨.v4, 0xC0A80000, 16⟩] := by
    intro h hh nm l hg
    rcases hh with rfl | rfl
    · cases hg
    · cases hg with
      | group hm hg =>
        simp only [Sample.before, List.mem_cons, List.not_mem_nil, or_false] at hm
        rcases hm with rfl | rfl
        · cases hg; rfl
        · cases hg with
          | group hm hg =>
            simp only [List.mem_cons, List.not_mem_nil, or_false] at hm
            subst hm
            cases hg
  refine ⟨?_, ⟨rfl, .same _, .expanded ?_⟩, ?_, by rfl, by rfl⟩
  · obtain ⟨heap', h1, h2, -⟩ := C25_every_group_gets_its_leaves finNet Sample.groups (by
      intro g a hm b hb
      match g with
      | 0 =>
        simp [Sample.groups] at hm
        subst hm
        simp [finNet] at hb
        rcases hb with rfl | rfl <;> rfl
      | 1 => simp [Sample.groups] at hm; subst hm; simp [finNet] at hb; subst hb; rfl
      | n + 2 => simp [Sample.groups] at hm) _ Sample.acyclic 5 [0, 1] (by decide)
    refine ⟨heap', h1, ?_⟩
    obtain ⟨l, hl, e⟩ := h2 0 (by simp)
    have : l = [.obj "o" [.net ⟨.v4, 0x0A000000, 8⟩, .net ⟨.v4, 0xC0A80000, 16⟩], .host ⟨.v4, 0x01020304⟩] :=
      HeapLeaves.det hl (.item (.ref (g := 1) (l := [Host.host ⟨.v4, 0x01020304⟩]) (l' := []) (.item .nil) .nil))
    rw [e, this]
    exact reads_items _ _ Sample.after (by simp [Sample.after])
  · exact .obj (b := [.host ⟨.v4, 0x01020304⟩]) (.group (a := [.host ⟨.v4, 0x01020304⟩]) (b := []) (.other (by simp) (by simp) .nil) .nil)
  · intro h hh
    constructor
    · intro nm l hg x hx
      rw [hobj h hh nm l hg] at hx
      simp only [List.mem_cons, List.not_mem_nil, or_false] at hx
      rcases hx with rfl | rfl <;> exact .net
    · intro nm l hg
      rw [hobj h hh nm l hg]
      simp

/-- **C92 is violated** for the keyword `ANY` and an object with a domain name in a group: the rule is selected only after the
expansion. -/
theorem C92_violated : EntryExpands (Sample.rule [.obj "fqdn" [.any]]) (Sample.rule [.any]) ∧
    configFilter 20 (fun _ => Sample.rule [.obj "fqdn" [.any]]) [7] ([], [], []) (Sample.filter .cafAny) = .ok [] ∧
    configFilter 20 (fun _ => Sample.rule [.any]) [7] ([], [], []) (Sample.filter .cafAny) = .ok [7] :=
  ⟨⟨rfl, .same _, .expanded (.obj .nil)⟩, by rfl, by rfl⟩

end Acltk.ExpandFilter
