import Verif.Spec.IosConfigSpec
import Verif.Props.IosConfig
import Verif.Props.Iface
import Verif.Props.NetText
import Verif.Lemmas.Ipv6Text
/-!
# C82, C85: routes and access groups of an IOS text
-/
namespace Acltk.IosConfig
open Acltk Acltk.Lookup
open Acltk.IosText (Item IRule Route Gateway File Same SameItems SameRule SameRules rulesOf routesOf Ends Cmd GatewayW)

/-! ## networks are well-formed -/

theorem mkNetwork_valid {a m : List Char} {n : Net} (h : mkNetwork a m = .ok n) : n.Valid := by
  have parts : ∀ v x y z, netOfParts v x y = some z → z.Valid := by
    intro v x y z h
    unfold netOfParts at h
    split at h
    · cases h
    · rename_i ip hip
      split at h
      · cases h
      · rename_i p hp
        cases h
        refine mkNet_valid (a := ⟨v, ip⟩) ?_ (makeNetmask_le hp)
        show ip < 2 ^ v.width
        cases v with
        | v4 => exact (parseV4_some hip).1
        | v6 => exact parseV6_lt hip
  have text : ∀ v x z, netOfText v x = some z → z.Valid := by
    intro v x z h
    unfold netOfText at h
    split at h
    · exact parts _ _ _ _ h
    · exact parts _ _ _ _ h
    · cases h
  unfold mkNetwork ipNetwork at h
  split at h
  · rename_i z hz; cases h; exact text _ _ _ hz
  · split at h
    · rename_i z hz; cases h; exact text _ _ _ hz
    · cases h

theorem iface_valid {w : String} {vs : List Ifc.Line} {i : Ifc.Intf} (h : Ifc.interfaceOf w vs = .ok i) :
    ∀ p ∈ i.addresses, p.2.Valid := by
  intro p hp
  have h4 := (Ifc.C56_interface_attributes w vs i h).2.2.2.1
  have : (.ok p : Py (Addr × Net)) ∈ i.addresses.map .ok := List.mem_map.2 ⟨p, hp, rfl⟩
  rw [← h4] at this
  obtain ⟨q, -, hq⟩ := List.mem_map.1 this
  unfold Ifc.mkIfAddr at hq
  split at hq
  · cases hq
  · rename_i n hn
    split at hq
    · cases hq
    · cases hq
      exact mkNetwork_valid hn

/-! ## positions -/

theorem same_at {is js : List Item} (h : SameItems is js) : ∀ k : Nat,
    (∀ b, is[k]? = some (.base b) ↔ js[k]? = some (.base b)) ∧ (∀ x, is[k]? = some (.route x) ↔ js[k]? = some (.route x)) := by
  induction h with
  | nil => intro k; simp
  | cons i j is js hij _ ih =>
    intro k
    cases k with
    | succ k => simpa using ih k
    | zero =>
      cases hij with
      | rule r r' h => simp
      | rules l l' h => simp
      | other => simp

theorem same_routePositions {is js : List Item} (h : SameItems is js) : RoutePositions is = RoutePositions js := by
  unfold RoutePositions
  generalize 0 = k
  induction h generalizing k with
  | nil => rfl
  | cons i j is js hij _ ih =>
    have : isRoute i = isRoute j := by cases hij <;> rfl
    rw [List.zipIdx_cons, List.zipIdx_cons, List.filter_cons, List.filter_cons]
    simp only [this]
    split
    · rw [List.map_cons, List.map_cons, ih]
    · exact ih _

theorem same_uses {is js : List Item} (h : SameItems is js) : Uses is = Uses js := by
  unfold Uses
  generalize 0 = k
  induction h generalizing k with
  | nil => rfl
  | cons i j is js hij _ ih =>
    rw [List.zipIdx_cons, List.zipIdx_cons, List.flatMap_cons, List.flatMap_cons, ih]
    congr 1
    cases hij <;> rfl

theorem same_through {is js : List Item} (h : SameItems is js) (j k : Nat) (g : Gateway) : Through is j k g ↔ Through js j k g := by
  have key : ∀ j i, IfaceAt is j i ↔ IfaceAt js j i := fun j i => (same_at h j).1 _
  cases g with
  | iface i => simp only [Through, key]
  | addr a => simp only [Through, key]

/-- What the parser has learned behind a list of items. -/
def learned (k : Nat) (d : Dict Ifc.Intf Oid) : List Item → Dict Ifc.Intf Oid
  | [] => d
  | i :: is => learned (k + 1) (learn k d i) is

/-- How many rules a list of items holds. -/
def counted (r : Nat) : List Item → Nat
  | [] => r
  | i :: is => counted (r + ruleCount i) is

theorem number_get (items : List Item) : ∀ k r d n, (number k r d items)[n]? =
    items[n]?.map (fun i => link (k + n) (counted r (items.take n)) (learned k d (items.take n)) i) := by
  induction items with
  | nil => intro k r d n; simp [number]
  | cons i is ih =>
    intro k r d n
    cases n with
    | zero => simp [number, counted, learned]
    | succ n =>
      rw [number, List.getElem?_cons_succ, ih]
      simp [counted, learned, Nat.add_assoc, Nat.add_comm 1]

theorem learned_snoc (l : List Item) (x : Item) : ∀ k d, learned k d (l ++ [x]) = learn (k + l.length) (learned k d l) x := by
  induction l with
  | nil => intro k d; rfl
  | cons i l ih =>
    intro k d
    rw [List.cons_append, learned, ih, learned, List.length_cons, Nat.add_assoc, Nat.add_comm 1]

/-- What was learned is the last position of the interface. -/
theorem learned_get (l : List Item) (i : Ifc.Intf) (j : Nat) : dGet (learned 0 [] l) i = some j ↔
    IfaceAt l j i ∧ ∀ j', j < j' → ¬ IfaceAt l j' i := by
  induction l using Config.snocInd generalizing j with
  | nil => simp [learned, dGet, IfaceAt]
  | snoc l x ih =>
    rw [learned_snoc, Nat.zero_add]
    by_cases hx : x = .base (.iface i)
    · subst hx
      rw [show learn l.length (learned 0 [] l) (.base (.iface i)) = dSet (learned 0 [] l) i l.length from rfl, dGet_dSet_same]
      constructor
      · intro e
        cases e
        refine ⟨by simp [IfaceAt], ?_⟩
        intro j' hj' h'
        have := (List.getElem?_eq_some_iff.1 h').1
        simp at this
        omega
      · rintro ⟨h1, h2⟩
        have h3 := (List.getElem?_eq_some_iff.1 h1).1
        simp at h3
        by_cases hj : j = l.length
        · rw [hj]
        · exact absurd (by simp [IfaceAt]) (h2 l.length (by omega))
    · have hg : dGet (learn l.length (learned 0 [] l) x) i = dGet (learned 0 [] l) i := by
        unfold learn
        split
        · rename_i i'
          exact dGet_dSet_other _ _ (by rintro rfl; exact hx rfl)
        · rfl
      have key : ∀ j, IfaceAt (l ++ [x]) j i ↔ IfaceAt l j i := by
        intro j
        unfold IfaceAt
        by_cases hj : j < l.length
        · rw [List.getElem?_append_left hj]
        · rw [List.getElem?_eq_none (by omega : l.length ≤ j)]
          constructor
          · intro h
            have := (List.getElem?_eq_some_iff.1 h).1
            simp at this
            obtain rfl : j = l.length := by omega
            simp at h
            exact absurd h hx
          · intro h; cases h
      rw [hg, ih, key]
      simp only [key]

/-- The interfaces in force are those no later one with the same alias follows. -/
theorem mem_inForce (l : List Config.Item) (f : Config.Iface) : f ∈ Config.inForce l ↔
    ∃ j : Nat, l[j]? = some (.iface f) ∧ ∀ (j' : Nat) f', j < j' → l[j']? = some (.iface f') → f'.alias ≠ f.alias := by
  have find : ∀ (l : List Config.Item) a, (l.filterMap Config.ifaceOf).reverse.find? (fun i => i.alias == a) = some f ↔
      f.alias = a ∧ ∃ j : Nat, l[j]? = some (.iface f) ∧ ∀ (j' : Nat) f', j < j' → l[j']? = some (.iface f') → f'.alias ≠ a := by
    intro l a
    induction l using Config.snocInd with
    | nil => simp
    | snoc l x ih =>
      have old : ∀ (hx : ∀ f', x = .iface f' → f'.alias ≠ a), f.alias = a →
          ((∃ j : Nat, (l ++ [x])[j]? = some (.iface f) ∧ ∀ (j' : Nat) f', j < j' → (l ++ [x])[j']? = some (.iface f') → f'.alias ≠ a) ↔
           ∃ j : Nat, l[j]? = some (.iface f) ∧ ∀ (j' : Nat) f', j < j' → l[j']? = some (.iface f') → f'.alias ≠ a) := by
        intro hx ha
        constructor
        · rintro ⟨j, h1, h2⟩
          by_cases hj : j < l.length
          · refine ⟨j, by rw [List.getElem?_append_left hj] at h1; exact h1, ?_⟩
            intro j' f' hj' h'
            refine h2 j' f' hj' ?_
            rw [List.getElem?_append_left (List.getElem?_eq_some_iff.1 h').1]; exact h'
          · have := (List.getElem?_eq_some_iff.1 h1).1
            simp at this
            obtain rfl : j = l.length := by omega
            simp at h1
            exact absurd ha (hx f h1)
        · rintro ⟨j, h1, h2⟩
          have hj := (List.getElem?_eq_some_iff.1 h1).1
          refine ⟨j, by rw [List.getElem?_append_left hj]; exact h1, ?_⟩
          intro j' f' hj' h'
          by_cases hl : j' < l.length
          · rw [List.getElem?_append_left hl] at h'; exact h2 j' f' hj' h'
          · have := (List.getElem?_eq_some_iff.1 h').1
            simp at this
            obtain rfl : j' = l.length := by omega
            simp at h'
            exact hx f' h'
      cases hx : Config.ifaceOf x with
      | none =>
        have hno : ∀ f', x = .iface f' → f'.alias ≠ a := by rintro f' rfl; cases hx
        rw [List.filterMap_append, show [x].filterMap Config.ifaceOf = [] by simp [hx], List.append_nil, ih]
        constructor
        · rintro ⟨ha, h⟩; exact ⟨ha, (old hno ha).2 h⟩
        · rintro ⟨ha, h⟩; exact ⟨ha, (old hno ha).1 h⟩
      | some y =>
        have hxy : x = .iface y := by
          cases x <;> simp [Config.ifaceOf] at hx
          rw [hx]
        subst hxy
        rw [List.filterMap_append, show [Config.Item.iface y].filterMap Config.ifaceOf = [y] from rfl, List.reverse_append,
          List.reverse_singleton, List.singleton_append, List.find?_cons]
        by_cases hy : y.alias = a
        · simp only [hy, beq_self_eq_true, Option.some.injEq]
          constructor
          · rintro rfl
            refine ⟨hy, l.length, by simp, ?_⟩
            intro j' f' hj' h'
            have := (List.getElem?_eq_some_iff.1 h').1
            simp at this
            omega
          · rintro ⟨ha, j, h1, h2⟩
            have := (List.getElem?_eq_some_iff.1 h1).1
            simp at this
            by_cases hj : j < l.length
            · exact absurd hy (h2 l.length y hj (by simp))
            · obtain rfl : j = l.length := by omega
              simpa using h1
        · have hno : ∀ f', Config.Item.iface y = .iface f' → f'.alias ≠ a := by
            intro f' e; cases e; exact hy
          have hb : (y.alias == a) = false := by simp [hy]
          rw [hb]
          rw [ih]
          constructor
          · rintro ⟨ha, h⟩; exact ⟨ha, (old hno ha).2 h⟩
          · rintro ⟨ha, h⟩; exact ⟨ha, (old hno ha).1 h⟩
  unfold Config.inForce
  simp only [List.mem_filterMap, List.mem_eraseDups]
  constructor
  · rintro ⟨a, -, h⟩
    obtain ⟨rfl, h⟩ := (find l a).1 h
    exact h
  · intro h
    refine ⟨f.alias, ?_, (find l f.alias).2 ⟨rfl, h⟩⟩
    obtain ⟨j, h1, -⟩ := h
    exact List.mem_map.2 ⟨f, List.mem_filterMap.2 ⟨_, List.mem_of_getElem? h1, rfl⟩, rfl⟩

/-! ## the numbered items -/

theorem number_route (items : List Item) (k r : Nat) (g : Config.Gw) :
    (number 0 0 [] items)[k]? = some (.route r g) ↔
    k = r ∧ ∃ x, items[k]? = some (.route x) ∧ g = gateway (learned 0 [] (items.take k)) x.gw := by
  rw [number_get]
  cases hi : items[k]? with
  | none => simp
  | some i =>
    simp only [Option.map_some, Option.some.injEq, Nat.zero_add]
    cases i with
    | base b => cases b <;> simp [link, CafFilter.link]
    | rule r => simp [link]
    | rules l => simp [link]
    | route x =>
      simp only [link, Config.Item.route.injEq, Item.route.injEq, exists_eq_left']
      exact ⟨fun h => ⟨h.1, h.2.symm⟩, fun h => ⟨h.1, h.2.symm⟩⟩

theorem number_iface (items : List Item) (k : Nat) (f : Config.Iface) :
    (number 0 0 [] items)[k]? = some (.iface f) ↔
    ∃ i, IfaceAt items k i ∧ f = ⟨k, i.alias, i.nameif, i.addresses.map (·.2)⟩ := by
  rw [number_get]
  unfold IfaceAt
  cases hi : items[k]? with
  | none => simp
  | some i =>
    simp only [Option.map_some, Option.some.injEq, Nat.zero_add]
    cases i with
    | base b =>
      cases b <;> simp [link, CafFilter.link]
      exact eq_comm
    | rule r => simp [link]
    | rules l => simp [link]
    | route x => simp [link]

theorem number_routePositions (items : List Item) : ∀ k r d,
    ((number k r d items).filterMap Config.routeOf).map (·.1) = ((items.zipIdx k).filter (fun p => isRoute p.1)).map (·.2) := by
  induction items with
  | nil => intro k r d; rfl
  | cons i is ih =>
    intro k r d
    rw [number, List.zipIdx_cons, List.filterMap_cons]
    cases i with
    | base b => cases b <;> exact ih _ _ _
    | rule r => exact ih _ _ _
    | rules l => exact ih _ _ _
    | route x =>
      show k :: _ = k :: _
      congr 1
      exact ih _ _ _

/-! ## what holds of the items of a text -/

/-- The interfaces known are those defined last under their name. -/
def IfInv (s : FwsmText.St) (front : List Item) : Prop := ∀ w i, dGet s.ifaces w = some i →
  i.alias = w ∧ ∃ j, IfaceAt front j i ∧ ∀ j' i', j < j' → IfaceAt front j' i' → i'.alias ≠ w

/-- What holds of every item. -/
def ItemOk (items : List Item) : Prop :=
  (∀ j i, IfaceAt items j i → ∀ p ∈ i.addresses, p.2.Valid) ∧
  (∀ (k : Nat) a n, items[k]? = some (.route ⟨n, .addr a⟩) → a.Valid) ∧
  (∀ (k : Nat) i n, items[k]? = some (.route ⟨n, .iface i⟩) →
    ∃ j, j < k ∧ IfaceAt items j i ∧ ∀ j' i', j < j' → j' < k → IfaceAt items j' i' → i'.alias ≠ i.alias)

theorem ifInv_more {s : FwsmText.St} {front is : List Item} (h : IfInv s front) (hn : ∀ i, Item.base (.iface i) ∉ is) :
    IfInv s (front ++ is) := by
  intro w i hi
  obtain ⟨h1, j, h2, h3⟩ := h w i hi
  refine ⟨h1, j, ?_, ?_⟩
  · unfold IfaceAt
    rw [List.getElem?_append_left (List.getElem?_eq_some_iff.1 h2).1]; exact h2
  · intro j' i' hj h'
    by_cases hl : j' < front.length
    · refine h3 j' i' hj ?_
      unfold IfaceAt at h' ⊢
      rwa [List.getElem?_append_left hl] at h'
    · unfold IfaceAt at h'
      rw [List.getElem?_append_right (by omega)] at h'
      exact absurd (List.mem_of_getElem? h') (hn i')

theorem file_items {s s' : FwsmText.St} {t : List Char} {is : List Item} (h : File s t is s') : ∀ front, IfInv s front → ItemOk front →
    ItemOk (front ++ is) := by
  induction h with
  | nil => intro front _ h; simpa using h
  | cmd s s' s'' t u is js hc _ ih =>
    intro front hi ho
    rw [← List.append_assoc]
    -- items that are neither interfaces nor routes
    have plain : ∀ is : List Item, (∀ i, Item.base (.iface i) ∉ is) → (∀ x, Item.route x ∉ is) → ItemOk (front ++ is) := by
      intro is h1 h2
      have at1 : ∀ j i, IfaceAt (front ++ is) j i → IfaceAt front j i := by
        intro j i h
        unfold IfaceAt at h ⊢
        by_cases hl : j < front.length
        · rwa [List.getElem?_append_left hl] at h
        · rw [List.getElem?_append_right (by omega)] at h
          exact absurd (List.mem_of_getElem? h) (h1 i)
      have at2 : ∀ (j : Nat) x, (front ++ is)[j]? = some (.route x) → front[j]? = some (.route x) := by
        intro j x h
        by_cases hl : j < front.length
        · rwa [List.getElem?_append_left hl] at h
        · rw [List.getElem?_append_right (by omega)] at h
          exact absurd (List.mem_of_getElem? h) (h2 x)
      refine ⟨fun j i h => ho.1 j i (at1 j i h), fun k a n h => ho.2.1 k a n (at2 _ _ h), ?_⟩
      intro k i n h
      obtain ⟨j, hj, h3, h4⟩ := ho.2.2 k i n (at2 _ _ h)
      refine ⟨j, hj, ?_, fun j' i' a b c => h4 j' i' a b (at1 _ _ c)⟩
      unfold IfaceAt
      rw [List.getElem?_append_left (List.getElem?_eq_some_iff.1 h3).1]; exact h3
    cases hc with
    | interface w l t vs i hw hl ht hvs =>
      refine ih _ ?_ ?_
      · intro w' i' h'
        simp only [dGet_dSet] at h'
        split at h'
        · rename_i e
          subst e
          cases h'
          refine ⟨(Ifc.C56_interface_attributes _ _ _ hvs).1, front.length, by simp [IfaceAt], ?_⟩
          intro j' i' hj h'
          have := (List.getElem?_eq_some_iff.1 h').1
          simp at this
          omega
        · rename_i hne
          obtain ⟨h1, j, h2, h3⟩ := hi w' i' h'
          refine ⟨h1, j, ?_, ?_⟩
          · unfold IfaceAt
            rw [List.getElem?_append_left (List.getElem?_eq_some_iff.1 h2).1]; exact h2
          · intro j' i'' hj h''
            by_cases hl : j' < front.length
            · refine h3 j' i'' hj ?_
              unfold IfaceAt at h'' ⊢
              rwa [List.getElem?_append_left hl] at h''
            · have := (List.getElem?_eq_some_iff.1 h'').1
              simp at this
              obtain rfl : j' = front.length := by omega
              simp [IfaceAt] at h''
              rw [← h'', (Ifc.C56_interface_attributes _ _ _ hvs).1]
              exact fun e => hne e.symm
      · have old : ∀ (k : Nat) x, (front ++ [Item.base (.iface i)])[k]? = some x → k < front.length ∧ front[k]? = some x ∨
            k = front.length ∧ x = .base (.iface i) := by
          intro k x h
          by_cases hl : k < front.length
          · rw [List.getElem?_append_left hl] at h; exact Or.inl ⟨hl, h⟩
          · have := (List.getElem?_eq_some_iff.1 h).1
            simp at this
            obtain rfl : k = front.length := by omega
            simp at h
            exact Or.inr ⟨rfl, h.symm⟩
        refine ⟨?_, ?_, ?_⟩
        · intro j i' h
          rcases old _ _ h with ⟨-, h⟩ | ⟨-, h⟩
          · exact ho.1 j i' h
          · cases h; exact iface_valid hvs
        · intro k a n h
          rcases old _ _ h with ⟨-, h⟩ | ⟨-, h⟩
          · exact ho.2.1 k a n h
          · cases h
        · intro k i' n h
          rcases old _ _ h with ⟨hk, h⟩ | ⟨-, h⟩
          · obtain ⟨j, hj, h3, h4⟩ := ho.2.2 k i' n h
            refine ⟨j, hj, ?_, ?_⟩
            · unfold IfaceAt
              rw [List.getElem?_append_left (List.getElem?_eq_some_iff.1 h3).1]; exact h3
            · intro j' i'' a b c
              refine h4 j' i'' a b ?_
              unfold IfaceAt at c ⊢
              rwa [List.getElem?_append_left (by omega)] at c
          · cases h
    | route w m v x q p n gw l hx1 hx2 hq1 hq2 hm hn hna hgw hl =>
      refine ih _ (ifInv_more hi (by simp)) ?_
      have old : ∀ (k : Nat) y, (front ++ [Item.route ⟨n, gw⟩])[k]? = some y → k < front.length ∧ front[k]? = some y ∨
          k = front.length ∧ y = .route ⟨n, gw⟩ := by
        intro k y h
        by_cases hl : k < front.length
        · rw [List.getElem?_append_left hl] at h; exact Or.inl ⟨hl, h⟩
        · have := (List.getElem?_eq_some_iff.1 h).1
          simp at this
          obtain rfl : k = front.length := by omega
          simp at h
          exact Or.inr ⟨rfl, h.symm⟩
      have keep : ∀ k j i, j < k → IfaceAt front j i ∧ (∀ j' i', j < j' → j' < k → IfaceAt front j' i' → i'.alias ≠ i.alias) →
          k ≤ front.length → ∃ j, j < k ∧ IfaceAt (front ++ [Item.route ⟨n, gw⟩]) j i ∧
          ∀ j' i', j < j' → j' < k → IfaceAt (front ++ [Item.route ⟨n, gw⟩]) j' i' → i'.alias ≠ i.alias := by
        intro k j i hj ⟨h3, h4⟩ hk
        refine ⟨j, hj, ?_, ?_⟩
        · unfold IfaceAt
          rw [List.getElem?_append_left (List.getElem?_eq_some_iff.1 h3).1]; exact h3
        · intro j' i'' a b c
          refine h4 j' i'' a b ?_
          unfold IfaceAt at c ⊢
          rwa [List.getElem?_append_left (by omega)] at c
      refine ⟨?_, ?_, ?_⟩
      · intro j i' h
        rcases old _ _ h with ⟨-, h⟩ | ⟨-, h⟩
        · exact ho.1 j i' h
        · cases h
      · intro k a n' h
        rcases old _ _ h with ⟨-, h⟩ | ⟨-, h⟩
        · exact ho.2.1 k a n' h
        · cases h
          cases hgw with
          | address x hx _ => exact hx
      · intro k i' n' h
        rcases old _ _ h with ⟨hk, h⟩ | ⟨ek, hy⟩
        · obtain ⟨j, hj, h3, h4⟩ := ho.2.2 k i' n' h
          exact keep k j i' hj ⟨h3, h4⟩ (by omega)
        · clear h
          subst ek
          cases hy
          cases hgw with
          | interface i0 hkn hdig =>
            obtain ⟨h1, j, h2, h3⟩ := hi _ _ hkn
            refine keep front.length j i' (List.getElem?_eq_some_iff.1 h2).1 ⟨h2, ?_⟩ (by omega)
            intro j' i'' a _ c
            rw [h1]
            exact h3 j' i'' a c
    | _ => exact ih _ (ifInv_more hi (by simp)) (plain _ (by simp) (by simp))

theorem file_itemOk {g : Guard} {s' : FwsmText.St} {t : List Char} {is : List Item}
    (h : File { env := { guard := g } } t is s') : ItemOk is := by
  have := file_items h [] (by intro w i hi; cases hi) ⟨by simp [IfaceAt], by simp, by simp⟩
  simpa using this

/-! ## C82 -/

/-- The routes of the configuration object, and the interfaces they are attached to. -/
theorem build_routes (items : List Item) (ho : ItemOk items) :
    (build items).routes.map (·.1) = RoutePositions items ∧
    (∀ j k, k ∈ (build items).ifRoutes j ↔ ∃ x, items[k]? = some (.route x) ∧ Through items j k x.gw) ∧
    ∀ j, ((build items).ifRoutes j).Nodup := by
  have hw : ∀ i ∈ number 0 0 [] items, Config.WellFormed i := by
    intro i hi
    obtain ⟨k, hk⟩ := List.getElem?_of_mem hi
    cases i with
    | iface f =>
      obtain ⟨i, h1, rfl⟩ := (number_iface items k f).1 hk
      intro n hn
      obtain ⟨p, hp, rfl⟩ := List.mem_map.1 hn
      exact ho.1 k i h1 p hp
    | route o gw =>
      obtain ⟨rfl, x, h1, rfl⟩ := (number_route items k o gw).1 hk
      obtain ⟨n, gw⟩ := x
      cases gw with
      | addr a => exact ho.2.1 k a n h1
      | iface i => trivial
    | _ => trivial
  obtain ⟨h1, h2, h3⟩ := Config.C42_routes (agName items) (ifAg items) (number 0 0 [] items) hw
  refine ⟨?_, ?_, h3⟩
  · show (Config.buildIos _ _ _ _).routes.map (·.1) = _
    rw [h1, number_routePositions]
    rfl
  · intro j k
    rw [show (build items).ifRoutes = (Config.buildIos (agName items) (ifAg items) (fun _ => []) (number 0 0 [] items)).ifRoutes from rfl,
      h2]
    constructor
    · rintro ⟨g, hm, hr⟩
      obtain ⟨n, hn⟩ := List.getElem?_of_mem hm
      obtain ⟨rfl, x, hx, rfl⟩ := (number_route items n k g).1 hn
      refine ⟨x, hx, ?_⟩
      obtain ⟨net, gw⟩ := x
      cases gw with
      | addr a =>
        obtain ⟨f, hf, hfj, m, hm, hd⟩ := hr
        obtain ⟨j', h4, h5⟩ := (mem_inForce _ f).1 hf
        obtain ⟨i, h6, rfl⟩ := (number_iface items j' f).1 h4
        obtain rfl : j' = j := hfj
        obtain ⟨p, hp, rfl⟩ := List.mem_map.1 hm
        refine ⟨i, h6, ?_, p, hp, hd⟩
        intro j'' i'' hj h7
        exact h5 j'' _ hj ((number_iface items j'' _).2 ⟨i'', h7, rfl⟩)
      | iface i =>
        obtain ⟨j', hj', h4, h5⟩ := ho.2.2 n i net hx
        have hl : dGet (learned 0 [] (items.take n)) i = some j' := by
          rw [learned_get]
          refine ⟨?_, ?_⟩
          · unfold IfaceAt; rw [List.getElem?_take_of_lt hj']; exact h4
          · intro j'' a b
            have hb := (List.getElem?_eq_some_iff.1 b).1
            simp at hb
            unfold IfaceAt at b
            rw [List.getElem?_take_of_lt (by omega)] at b
            exact h5 j'' i a (by omega) b rfl
        simp only [gateway, Config.Reaches, hl, Option.getD_some] at hr
        subst hr
        exact ⟨h4, hj', h5⟩
    · rintro ⟨x, hx, hr⟩
      refine ⟨_, List.mem_of_getElem? ((number_route items k k _).2 ⟨rfl, x, hx, rfl⟩), ?_⟩
      obtain ⟨net, gw⟩ := x
      cases gw with
      | addr a =>
        obtain ⟨i, h4, h5, p, hp, hd⟩ := hr
        refine ⟨⟨j, i.alias, i.nameif, i.addresses.map (·.2)⟩, (mem_inForce _ _).2 ⟨j, (number_iface items j _).2 ⟨i, h4, rfl⟩, ?_⟩, rfl,
          p.2, List.mem_map.2 ⟨p, hp, rfl⟩, hd⟩
        intro j' f' hj h6
        obtain ⟨i', h7, rfl⟩ := (number_iface items j' f').1 h6
        exact h5 j' i' hj h7
      | iface i =>
        obtain ⟨h4, hj, h5⟩ := hr
        have hl : dGet (learned 0 [] (items.take k)) i = some j := by
          rw [learned_get]
          refine ⟨?_, ?_⟩
          · unfold IfaceAt; rw [List.getElem?_take_of_lt hj]; exact h4
          · intro j'' a b
            have hb := (List.getElem?_eq_some_iff.1 b).1
            simp at hb
            unfold IfaceAt at b
            rw [List.getElem?_take_of_lt (by omega)] at b
            exact h5 j'' i a (by omega) b rfl
        simp only [gateway, Config.Reaches, hl, Option.getD_some]

/-- **C82** (the routes that are recorded): the routes of a configuration text that consists of commands are the `ip route` commands
without further words, in the order of the text, each with the network and gateway written; a route is attached exactly
to the interface it names, or to the interfaces of the finished configuration whose networks its gateway is in. -/
theorem C82_routes_partial (g : Guard) (hg : FwsmText.NameGuard g) (text : List Char) (items : List Item) (s : FwsmText.St)
    (hf : File { env := { guard := g } } text items s) (hne : items ≠ []) (e : List Char) (hend : Ends e) :
    ∃ items' c, parse g (text ++ e) = some (.ok (items', c)) ∧ SameItems items items' ∧
      c.routes.map (·.1) = RoutePositions items ∧
      (∀ j k, k ∈ c.ifRoutes j ↔ ∃ x, items[k]? = some (.route x) ∧ Through items j k x.gw) ∧ ∀ j, (c.ifRoutes j).Nodup := by
  obtain ⟨items', u, h3, h4⟩ := IosText.C80_file_read_as_written g hg text items s hf hne e hend
  have ho : ItemOk items' := by
    obtain ⟨h1, h2, h5⟩ := file_itemOk hf
    have key : ∀ j i, IfaceAt items j i ↔ IfaceAt items' j i := fun j i => (same_at h3 j).1 _
    refine ⟨fun j i h => h1 j i ((key j i).2 h), fun k a n h => h2 k a n (((same_at h3 k).2 _).2 h), ?_⟩
    intro k i n h
    obtain ⟨j, a, b, c⟩ := h5 k i n (((same_at h3 k).2 _).2 h)
    exact ⟨j, a, (key j i).1 b, fun j' i' d e f => c j' i' d e ((key j' i').2 f)⟩
  obtain ⟨b1, b2, b3⟩ := build_routes items' ho
  refine ⟨items', build items', ?_, h3, ?_, ?_, b3⟩
  · unfold parse
    rw [h4]
  · rw [b1, same_routePositions h3]
  · intro j k
    rw [b2]
    constructor
    · rintro ⟨x, h1, h2⟩; exact ⟨x, ((same_at h3 k).2 x).2 h1, (same_through h3 _ _ _).2 h2⟩
    · rintro ⟨x, h1, h2⟩; exact ⟨x, ((same_at h3 k).2 x).1 h1, (same_through h3 _ _ _).1 h2⟩

theorem file_snoc {s s' s'' : FwsmText.St} {t u : List Char} {is js : List Item} (h : File s t is s') (hc : Cmd s' u js s'') :
    File s (t ++ u) (is ++ js) s'' := by
  induction h with
  | nil s =>
    have := File.cmd s s'' s'' u [] js [] hc (.nil _)
    simpa using this
  | cmd s s1 s2 t1 t2 i1 i2 h1 _ ih =>
    rw [List.append_assoc, List.append_assoc]
    exact .cmd _ _ _ _ _ _ _ h1 (ih hc)

theorem routePositions_nothing (items : List Item) : RoutePositions (items ++ [.base .nothing]) = RoutePositions items := by
  unfold RoutePositions
  rw [List.zipIdx_append, List.filter_append, List.map_append]
  simp [isRoute]

/-- **C82 fails**: a route written with anything behind the gateway, be it a distance, a name, a tag or a single blank, is dropped
without a word: the configuration has the routes of the text in front of it and no other. -/
theorem C82_violated (g : Guard) (hg : FwsmText.NameGuard g) (text : List Char) (items : List Item) (s : FwsmText.St)
    (hf : File { env := { guard := g } } text items s) (w m v : String) (x q : Nat) (gw : Gateway) (h u : List Char) (c : Char)
    (hx : x < 2 ^ 32) (hw : w.toList = Dotted x) (hq : q < 2 ^ 32) (hm : m.toList = Dotted q) (hgw : GatewayW s v gw)
    (hl : AclText.Spaced ["ip", "route", w, m, v] h) (hc : c = ' ' ∨ c = '\t') (hu : '\n' ∉ u) (e : List Char) (hend : Ends e) :
    ∃ items' cfg, parse g (text ++ (h ++ (c :: (u ++ ['\n']))) ++ e) = some (.ok (items', cfg)) ∧
      cfg.routes.map (·.1) = RoutePositions items := by
  obtain ⟨items', cfg, h1, -, h3, -⟩ := C82_routes_partial g hg _ _ s
    (file_snoc hf (.routeMore w m v x q gw h u c hx hw hq hm hgw hl hc hu)) (by simp) e hend
  exact ⟨items', cfg, h1, by rw [h3, routePositions_nothing]⟩

/-- **C82 fails**: so is a route to an interface that is not defined in front of it, such as `Null0`. -/
theorem C82_violated_interface (g : Guard) (hg : FwsmText.NameGuard g) (text : List Char) (items : List Item) (s : FwsmText.St)
    (hf : File { env := { guard := g } } text items s) (w m v : String) (x q : Nat) (h u : List Char)
    (hx : x < 2 ^ 32) (hw : w.toList = Dotted x) (hq : q < 2 ^ 32) (hm : m.toList = Dotted q) (hv : AclText.Word v)
    (hd : ∀ c ∈ v.toList.head?, c.isDigit = false) (hk : ∀ i, ¬ AclText.Known s.ifaces v i)
    (hl : AclText.Spaced ["ip", "route", w, m, v] h) (hu : FwsmText.LineRest u) (e : List Char) (hend : Ends e) :
    ∃ items' cfg, parse g (text ++ (h ++ (u ++ ['\n'])) ++ e) = some (.ok (items', cfg)) ∧
      cfg.routes.map (·.1) = RoutePositions items := by
  obtain ⟨items', cfg, h1, -, h3, -⟩ := C82_routes_partial g hg _ _ s
    (file_snoc hf (.routeUnknown w m v x q h u hx hw hq hm hv hd hk hl hu)) (by simp) e hend
  exact ⟨items', cfg, h1, by rw [h3, routePositions_nothing]⟩

/-- The sample has two routes, both attached to its interface: the first by the network of its gateway, the second by name. -/
theorem C82_sample : ∃ items cfg, parse tatsuGuard (IosText.sampleText ++ IosText.sampleEnd) = some (.ok (items, cfg)) ∧
    cfg.routes.map (·.1) = [8, 9] ∧ 8 ∈ cfg.ifRoutes 3 ∧ 9 ∈ cfg.ifRoutes 3 := by
  obtain ⟨s, hs⟩ := IosText.sample_file
  obtain ⟨items, cfg, h1, -, h3, h4, -⟩ := C82_routes_partial tatsuGuard FwsmText.tatsuGuard_name _ _ s hs
    (by simp [IosText.sampleItems]) IosText.sampleEnd
    (.word "line" " con 0\n access-class 10 in\nend\n".toList (by decide) ⟨_, Or.inl rfl⟩)
  refine ⟨items, cfg, h1, ?_, ?_, ?_⟩
  · rw [h3]; decide +kernel
  · rw [h4]
    refine ⟨_, rfl, IosText.sampleIface, rfl, ?_, _, List.mem_cons_self, ?_⟩
    · intro j' i' hj h'
      exfalso
      have hlt := (List.getElem?_eq_some_iff.1 h').1
      have : ∀ j', j' < IosText.sampleItems.length → 3 < j' → (match IosText.sampleItems[j']? with | some (.base (.iface _)) => false | _ => true) = true := by
        decide +kernel
      have := this j' hlt hj
      rw [h'] at this
      cases this
    · exact ⟨rfl, by decide +kernel⟩
  · rw [h4]
    refine ⟨_, rfl, rfl, by omega, ?_⟩
    intro j' i' hj hj' h'
    exfalso
    have hlt := (List.getElem?_eq_some_iff.1 h').1
    have : ∀ j', j' < IosText.sampleItems.length → 3 < j' → (match IosText.sampleItems[j']? with | some (.base (.iface _)) => false | _ => true) = true := by
      decide +kernel
    have := this j' hlt hj
    rw [h'] at this
    cases this

/-! ## C85 -/

theorem uses_eq (items : List Item) : accessGroups 0 items = Uses items := by
  unfold Uses
  generalize 0 = k
  induction items generalizing k with
  | nil => rfl
  | cons i is ih =>
    rw [List.zipIdx_cons, List.flatMap_cons, ← ih]
    cases i with
    | base b => cases b <;> rfl
    | rule r => rfl
    | rules l => rfl
    | route x => rfl

theorem accessGroups_ge (items : List Item) : ∀ k, ∀ e ∈ accessGroups k items, k ≤ e.1 := by
  induction items with
  | nil => intro k e he; cases he
  | cons i is ih =>
    intro k e he
    have rest : e ∈ accessGroups (k + 1) is → k ≤ e.1 := fun h => by have := ih (k + 1) e h; omega
    cases i with
    | base b =>
      cases b with
      | iface j =>
        rcases List.mem_append.1 he with he | he
        · obtain ⟨x, -, rfl⟩ := List.mem_map.1 he; exact Nat.le_refl k
        · exact rest he
      | _ => exact rest he
    | rule r => exact rest he
    | rules l => exact rest he
    | route x => exact rest he

theorem zipIdx_snd {α : Type} (l : List α) : ∀ m, (l.zipIdx m).map (·.2) = List.range' m l.length := by
  induction l with
  | nil => intro m; rfl
  | cons a l ih => intro m; rw [List.zipIdx_cons, List.map_cons, ih]; rfl

theorem filter_all {α : Type} {l : List α} {p : α → Bool} (h : ∀ a ∈ l, p a = true) : l.filter p = l := List.filter_eq_self.2 h

theorem filter_none {α : Type} {l : List α} {p : α → Bool} (h : ∀ a ∈ l, p a = false) : l.filter p = [] :=
  List.filter_eq_nil_iff.2 (fun a ha => by rw [h a ha]; exact Bool.false_ne_true)

theorem fst_mem_zipIdx {α : Type} {l : List α} {m : Nat} {e : α × Nat} (h : e ∈ l.zipIdx m) : e.1 ∈ l := by
  obtain ⟨a, b⟩ := e
  exact List.fst_mem_of_mem_zipIdx h

theorem iface_uses (items : List Item) : ∀ k r d (pre : List (Oid × String × String × String)), (∀ e ∈ pre, e.1 < k) →
    ((number k r d items).filterMap Config.ifaceOf).flatMap (fun i =>
      (((pre ++ accessGroups k items).zipIdx.filter (fun e => e.1.1 == i.oid)).map (·.2))) =
    List.range' pre.length (accessGroups k items).length := by
  induction items with
  | nil => intro k r d pre _; rfl
  | cons i is ih =>
    intro k r d pre hpre
    have skip : ∀ (h1 : Config.ifaceOf (link k r d i) = none) (h2 : accessGroups k (i :: is) = accessGroups (k + 1) is),
        ((number k r d (i :: is)).filterMap Config.ifaceOf).flatMap (fun j =>
          (((pre ++ accessGroups k (i :: is)).zipIdx.filter (fun e => e.1.1 == j.oid)).map (·.2))) =
        List.range' pre.length (accessGroups k (i :: is)).length := by
      intro h1 h2
      rw [h2, number, List.filterMap_cons, h1]
      exact ih (k + 1) _ _ pre (fun e he => Nat.lt_succ_of_lt (hpre e he))
    cases i with
    | rule x => exact skip rfl rfl
    | rules l => exact skip rfl rfl
    | route x => exact skip rfl rfl
    | base b =>
      cases b with
      | iface j =>
        rw [number, List.filterMap_cons]
        show List.flatMap _ (_ :: _) = _
        rw [List.flatMap_cons]
        have ha : accessGroups k (.base (.iface j) :: is) =
            j.accessGroups.map (fun e => (k, e.1, e.2.1, e.2.2)) ++ accessGroups (k + 1) is := rfl
        rw [ha]
        have own : (((pre ++ (j.accessGroups.map (fun e => (k, e.1, e.2.1, e.2.2)) ++ accessGroups (k + 1) is)).zipIdx.filter
            (fun e => e.1.1 == k)).map (·.2)) = List.range' pre.length (j.accessGroups.map (fun e => (k, e.1, e.2.1, e.2.2))).length := by
          rw [List.zipIdx_append, List.zipIdx_append, List.filter_append, List.filter_append]
          rw [filter_none (l := pre.zipIdx) (by
              intro e he
              exact beq_false_of_ne (Nat.ne_of_lt (hpre _ (fst_mem_zipIdx he)))),
            filter_none (l := (accessGroups (k + 1) is).zipIdx _) (by
              intro e he
              exact beq_false_of_ne (Nat.ne_of_gt (accessGroups_ge is (k + 1) _ (fst_mem_zipIdx he)))),
            filter_all (by
              intro e he
              obtain ⟨x, -, hx⟩ := List.mem_map.1 (fst_mem_zipIdx he)
              rw [← hx]
              simp)]
          rw [List.nil_append, List.append_nil, zipIdx_snd]
          simp
        have rest := ih (k + 1) (r + ruleCount (.base (.iface j))) (learn k d (.base (.iface j)))
          (pre ++ j.accessGroups.map (fun e => (k, e.1, e.2.1, e.2.2))) (by
            intro e he
            rcases List.mem_append.1 he with he | he
            · exact Nat.lt_succ_of_lt (hpre e he)
            · obtain ⟨x, -, rfl⟩ := List.mem_map.1 he
              exact Nat.lt_succ_self k)
        rw [List.append_assoc] at rest
        rw [rest]
        refine (congrArg (· ++ _) own).trans ?_
        rw [List.length_append, List.length_append, List.range'_append_1]
      | _ => exact skip rfl rfl

theorem number_iface_oids (items : List Item) : ∀ k r d, (∀ o ∈ ((number k r d items).filterMap Config.ifaceOf).map (·.oid), k ≤ o) ∧
    (((number k r d items).filterMap Config.ifaceOf).map (·.oid)).Nodup := by
  induction items with
  | nil => intro k r d; refine ⟨?_, List.nodup_nil⟩; intro o ho; cases ho
  | cons i is ih =>
    intro k r d
    obtain ⟨h1, h2⟩ := ih (k + 1) (r + ruleCount i) (learn k d i)
    rw [number, List.filterMap_cons]
    have skip : (∀ o ∈ ((number (k + 1) (r + ruleCount i) (learn k d i) is).filterMap Config.ifaceOf).map (·.oid), k ≤ o) ∧
        (((number (k + 1) (r + ruleCount i) (learn k d i) is).filterMap Config.ifaceOf).map (·.oid)).Nodup :=
      ⟨fun o ho => by have := h1 o ho; omega, h2⟩
    cases i with
    | rule x => exact skip
    | rules l => exact skip
    | route x => exact skip
    | base b =>
      cases b with
      | iface j =>
        show (∀ o ∈ k :: _, k ≤ o) ∧ (k :: _).Nodup
        refine ⟨?_, List.nodup_cons.2 ⟨?_, h2⟩⟩
        · intro o ho
          rcases List.mem_cons.1 ho with rfl | ho
          · exact Nat.le_refl _
          · have := h1 o ho; omega
        · intro hk
          have := h1 k hk
          omega
      | _ => exact skip

theorem range_filter_get {α : Type} (l : List α) (p : α → Bool) (f : Nat → Bool) (h : ∀ n (hn : n < l.length), f n = p l[n]) :
    (((List.range l.length).filter f).map (fun n => l[n]?)) = (l.filter p).map some := by
  induction l using Config.snocInd with
  | nil => rfl
  | snoc l a ih =>
    rw [List.length_append, List.length_singleton, List.range_succ, List.filter_append, List.map_append, List.filter_append, List.map_append]
    congr 1
    · rw [← ih (fun n hn => by rw [h n (by simp; omega), List.getElem_append_left hn])]
      apply List.map_congr_left
      intro n hn
      have := List.mem_range.1 (List.mem_filter.1 hn).1
      rw [List.getElem?_append_left this]
    · have := h l.length (by simp)
      simp at this
      rw [List.filter_cons, List.filter_cons, this]
      split <;> simp

/-- The access groups of the configuration object. -/
theorem build_accessGroups (items : List Item) (name : String) :
    ((dGet (build items).base.accessGroups name).getD []).map (fun o => (accessGroups 0 items)[o]?) =
      ((Uses items).filter (fun e => e.2.2.1 == name)).map some := by
  have h0 : (build items).base.accessGroups = (Config.build (agName items) (ifAg items) (number 0 0 [] items)).accessGroups := rfl
  rw [h0, Config.C39_access_groups_table _ _ _ _ (number_iface_oids items 0 0 []).2]
  have h1 : ∀ o, dVals (ifAg items o) = ((((([] : List (Oid × String × String × String)) ++ accessGroups 0 items).zipIdx).filter (fun e => e.1.1 == o)).map (·.2)) := by
    intro o
    unfold dVals ifAg
    rw [List.map_map, List.nil_append]
    rfl
  simp only [h1]
  rw [iface_uses items 0 0 [] [] (by simp), List.length_nil, ← List.range_eq_range', ← uses_eq]
  apply range_filter_get
  intro n hn
  unfold agName
  rw [List.getElem?_eq_getElem hn]

/-- **C85.** `config.access_groups[name]` of a configuration text lists, in the order of the text, exactly the places where an interface
uses the access list `name`, each with the interface and direction written. -/
theorem C85_access_groups (g : Guard) (hg : FwsmText.NameGuard g) (text : List Char) (items : List Item) (s : FwsmText.St)
    (hf : File { env := { guard := g } } text items s) (hne : items ≠ []) (e : List Char) (hend : Ends e) :
    ∃ items' c, parse g (text ++ e) = some (.ok (items', c)) ∧ SameItems items items' ∧ ∀ name,
      ((dGet c.base.accessGroups name).getD []).map (fun o => (accessGroups 0 items')[o]?) =
        ((Uses items).filter (fun u => u.2.2.1 == name)).map some := by
  obtain ⟨items', u, h3, h4⟩ := IosText.C80_file_read_as_written g hg text items s hf hne e hend
  refine ⟨items', build items', ?_, h3, ?_⟩
  · unfold parse
    rw [h4]
  · intro name
    rw [build_accessGroups, same_uses h3]

/-- The interface of the sample uses the list `in1`. -/
theorem C85_sample : ∃ items cfg, parse tatsuGuard (IosText.sampleText ++ IosText.sampleEnd) = some (.ok (items, cfg)) ∧
    ((dGet cfg.base.accessGroups "in1").getD []).map (fun o => (accessGroups 0 items)[o]?) = [some (3, "ip-in", "in1", "in")] ∧
    (dGet cfg.base.accessGroups "in2").getD [] = [] := by
  obtain ⟨s, hs⟩ := IosText.sample_file
  obtain ⟨items, cfg, h1, -, h3⟩ := C85_access_groups tatsuGuard FwsmText.tatsuGuard_name _ _ s hs
    (by simp [IosText.sampleItems]) IosText.sampleEnd
    (.word "line" " con 0\n access-class 10 in\nend\n".toList (by decide) ⟨_, Or.inl rfl⟩)
  refine ⟨items, cfg, h1, ?_, ?_⟩
  · rw [h3]; decide +kernel
  · have := h3 "in2"
    rw [show (Uses IosText.sampleItems).filter (fun u => u.2.2.1 == "in2") = [] by decide +kernel] at this
    exact List.map_eq_nil_iff.1 this

end Acltk.IosConfig
