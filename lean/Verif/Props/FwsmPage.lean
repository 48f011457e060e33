import Verif.Lemmas.FwsmHeap
/-!
# C108: the page of an FWSM text
-/
namespace Acltk.Page
open Acltk Acltk.Resolve Acltk.FwsmText
open Acltk.Accepted (RuleAt NatAt HoldsCfg listOf)

variable {objs : Oid → Obj} {items : List FwsmText.Item}

/-- Beneath the tables there are `ACLConfig.__init__` and the elements of the text. -/
theorem tables_fwsm {T : Type} (items : List FwsmText.Item) : Static.tables (T := T) (.fwsm items) =
    tablesOf (Config.build (CafFilter.agName items) (fun _ => []) (linked items)) := rfl

theorem defs_cons (c : Config.Kind) (n : String) (x : Config.Item) (l : List Config.Item) :
    Config.defsOf c (x :: l) n = (match Config.definesOf c x with
      | some (m, o) => if m = n then [o] else []
      | none => []) ++ Config.defsOf c l n := by
  unfold Config.defsOf
  rw [List.filterMap_cons]
  cases h : Config.definesOf c x with
  | none => rfl
  | some q =>
    obtain ⟨m, o⟩ := q
    simp only [List.filter_cons, beq_iff_eq]
    split <;> simp

theorem defs_reverse (c : Config.Kind) (n : String) (l : List Config.Item) : Config.defsOf c l.reverse n = (Config.defsOf c l n).reverse := by
  unfold Config.defsOf
  rw [List.filterMap_reverse, List.filter_reverse, List.map_reverse]

theorem defs_head (c : Config.Kind) (n : String) (o : Oid) : ∀ l : List Config.Item, (Config.defsOf c l n).head? = some o ↔
    ∃ (p : Nat) (x : Config.Item), l[p]? = some x ∧ Config.definesOf c x = some (n, o) ∧ ∀ (q : Nat) y m, q < p → l[q]? = some y → Config.definesOf c y ≠ some (n, m) := by
  intro l
  induction l with
  | nil => simp [Config.defsOf]
  | cons x l ih =>
    rw [defs_cons]
    by_cases hx : ∃ m, Config.definesOf c x = some (n, m)
    · obtain ⟨m, hm⟩ := hx
      simp only [hm, if_true, List.cons_append, List.nil_append, List.head?_cons, Option.some.injEq]
      constructor
      · rintro rfl
        exact ⟨0, x, rfl, hm, by intro q y m hq; omega⟩
      · rintro ⟨p, y, h1, h2, h3⟩
        cases p with
        | zero => simp only [List.getElem?_cons_zero, Option.some.injEq] at h1; subst h1; rw [hm] at h2; cases h2; rfl
        | succ p => exact absurd hm (h3 0 x m (by omega) rfl)
    · have : (match Config.definesOf c x with
        | some (m, o) => if m = n then [o] else []
        | none => []) = ([] : List Oid) := by
        split
        · rename_i m w h
          rw [if_neg]
          rintro rfl
          exact hx ⟨w, h⟩
        · rfl
      rw [this, List.nil_append, ih]
      constructor
      · rintro ⟨p, y, h1, h2, h3⟩
        refine ⟨p + 1, y, by simpa using h1, h2, ?_⟩
        intro q z m hq hz e
        cases q with
        | zero => simp only [List.getElem?_cons_zero, Option.some.injEq] at hz; subst hz; exact hx ⟨m, e⟩
        | succ q => exact h3 q z m (by omega) (by simpa using hz) e
      · rintro ⟨p, y, h1, h2, h3⟩
        cases p with
        | zero => simp only [List.getElem?_cons_zero, Option.some.injEq] at h1; subst h1; exact absurd ⟨o, h2⟩ hx
        | succ p =>
          refine ⟨p, y, by simpa using h1, h2, ?_⟩
          intro q z m hq hz
          exact h3 (q + 1) z m (by omega) (by simpa using hz)

theorem defs_last (c : Config.Kind) (n : String) (o : Oid) (l : List Config.Item) : (Config.defsOf c l n).getLast? = some o ↔
    ∃ (p : Nat) (x : Config.Item), l[p]? = some x ∧ Config.definesOf c x = some (n, o) ∧ ∀ (q : Nat) y m, p < q → l[q]? = some y → Config.definesOf c y ≠ some (n, m) := by
  rw [← List.head?_reverse, ← defs_reverse, defs_head]
  have flip : ∀ (l : List Config.Item) (p : Nat) x, l.reverse[p]? = some x → p < l.length ∧ l[l.length - 1 - p]? = some x := by
    intro l p x h
    have hp := (List.getElem?_eq_some_iff.1 h).1
    rw [List.length_reverse] at hp
    rw [List.getElem?_reverse hp] at h
    exact ⟨hp, h⟩
  have back : ∀ (p : Nat) x, l[p]? = some x → p < l.length ∧ l.reverse[l.length - 1 - p]? = some x := by
    intro p x h
    have hp := (List.getElem?_eq_some_iff.1 h).1
    refine ⟨hp, ?_⟩
    rw [List.getElem?_reverse (by omega), show l.length - 1 - (l.length - 1 - p) = p by omega]
    exact h
  constructor
  · rintro ⟨p, x, h1, h2, h3⟩
    obtain ⟨hp, h1⟩ := flip l p x h1
    refine ⟨_, x, h1, h2, ?_⟩
    intro q y m hq hy
    obtain ⟨hq', hy'⟩ := back q y hy
    exact h3 _ y m (by omega) hy'
  · rintro ⟨p, x, h1, h2, h3⟩
    obtain ⟨hp, h1⟩ := back p x h1
    refine ⟨_, x, h1, h2, ?_⟩
    intro q y m hq hy
    obtain ⟨hq', hy'⟩ := flip l q y hy
    exact h3 _ y m (by omega) hy'

/-- What the configuration keeps, in terms of the elements of the text. -/
theorem kept_linked (c : Config.Kind) (n : String) (o : Oid) :
    keptDef c (linked items) n = some o ↔ ∃ p, Kept items c n p ∧ o = if c = .netObj then objOid items p else p := by
  have at_ : ∀ (p : Nat) x, (linked items)[p]? = some x ↔ ∃ i, items[p]? = some i ∧ x = Static.place items.length (CafFilter.link p i) := by
    intro p x
    rw [linked_get, Option.map_eq_some_iff]
    exact exists_congr fun i => and_congr_right fun _ => eq_comm
  have def_ : ∀ {p : Nat} {i : FwsmText.Item} {m : String} {w : Oid}, items[p]? = some i →
      (Config.definesOf c (Static.place items.length (CafFilter.link p i)) = some (m, w) ↔ defName c i = some m ∧ w = if c = .netObj then objOid items p else p) := by
    intro p i m w h
    rw [linked_defines h, Option.map_eq_some_iff]
    constructor
    · rintro ⟨a, h1, h2⟩; cases h2; exact ⟨h1, rfl⟩
    · rintro ⟨h1, rfl⟩; exact ⟨m, h1, rfl⟩
  unfold keptDef
  by_cases hc : c = .netObj
  · rw [if_pos hc, defs_head]
    constructor
    · rintro ⟨p, x, h1, h2, h3⟩
      obtain ⟨i, hi, rfl⟩ := (at_ p x).1 h1
      obtain ⟨h4, rfl⟩ := (def_ hi).1 h2
      refine ⟨p, ⟨⟨i, hi, h4⟩, fun q j hj hd => ?_⟩, rfl⟩
      rw [if_pos hc]
      refine Nat.le_of_not_lt fun hq => ?_
      exact h3 q _ _ hq ((at_ q _).2 ⟨j, hj, rfl⟩) ((def_ hj).2 ⟨hd, rfl⟩)
    · rintro ⟨p, ⟨⟨i, hi, h4⟩, h⟩, rfl⟩
      refine ⟨p, _, (at_ p _).2 ⟨i, hi, rfl⟩, (def_ hi).2 ⟨h4, rfl⟩, ?_⟩
      intro q y m hq hy e
      obtain ⟨j, hj, rfl⟩ := (at_ q y).1 hy
      have := h q j hj ((def_ hj).1 e).1
      rw [if_pos hc] at this
      omega
  · rw [if_neg hc, defs_last]
    constructor
    · rintro ⟨p, x, h1, h2, h3⟩
      obtain ⟨i, hi, rfl⟩ := (at_ p x).1 h1
      obtain ⟨h4, rfl⟩ := (def_ hi).1 h2
      refine ⟨p, ⟨⟨i, hi, h4⟩, fun q j hj hd => ?_⟩, rfl⟩
      rw [if_neg hc]
      refine Nat.le_of_not_lt fun hq => ?_
      exact h3 q _ _ hq ((at_ q _).2 ⟨j, hj, rfl⟩) ((def_ hj).2 ⟨hd, rfl⟩)
    · rintro ⟨p, ⟨⟨i, hi, h4⟩, h⟩, rfl⟩
      refine ⟨p, _, (at_ p _).2 ⟨i, hi, rfl⟩, (def_ hi).2 ⟨h4, rfl⟩, ?_⟩
      intro q y m hq hy e
      obtain ⟨j, hj, rfl⟩ := (at_ q y).1 hy
      have := h q j hj ((def_ hj).1 e).1
      rw [if_neg hc] at this
      omega

/-- A reference is a definition that is kept, or an object without a name of its own. -/
def OkKept (items : List FwsmText.Item) (o : Oid) : Prop :=
  2 * items.length ≤ o ∨ ∃ (p : Nat) (i : FwsmText.Item) (c : Config.Kind) (n : String), items[p]? = some i ∧
    Config.definesOf c (Static.place items.length (CafFilter.link p i)) = some (n, o) ∧ Kept items c n p

theorem ok_kept (hS : Settled items) {k : Nat} (hk : Live items k) {o : Oid} (h : Ok items k o) : OkKept items o := by
  rcases h with h | ⟨p, i, c, n, h1, h2, h3⟩
  · exact Or.inl h
  · exact Or.inr ⟨p, i, c, n, h1, h2, hS k c n p hk h3⟩

/-- The elements whose fields `resolve` looks at. -/
theorem field_live {ag : Oid → String} {h : Oid → Dict String Oid} {a : Oid}
    (ha : a ∈ (tablesOf (Config.build ag h (linked items))).rules ∨ a ∈ (tablesOf (Config.build ag h (linked items))).nat) : a < items.length ∧ Live items a := by
  rcases ha with ha | ha
  · obtain ⟨k, i, h1, h2⟩ := mem_linked.1 (mem_rule ha)
    rcases i with _ | _ | _ | _ | _ | _ | ⟨_, _, _ | _, _⟩ | _ | _ | _ | _ | _ | _ | _ | _ | _ | _ | _ <;> simp [CafFilter.link, Static.place] at h2
    subst h2
    exact ⟨lt_of_get h1, .rule h1⟩
  · obtain ⟨x, hx, m, hm⟩ := mem_nat ha
    obtain ⟨k, i, h1, rfl⟩ := mem_linked.1 hx
    rw [Static.place_natOf] at hm
    rcases i with _ | _ | _ | _ | _ | _ | ⟨_, _, _ | _, _⟩ | _ | _ | _ | _ | _ | _ | _ | _ | _ | _ | _ <;> simp [CafFilter.link, Config.natOf] at hm
    · rw [← hm.2]
      exact ⟨lt_of_get h1, .objectNat h1⟩
    · have : a = k := by split at hm <;> simp at hm <;> exact hm.2.symm
      rw [this]
      exact ⟨lt_of_get h1, .nat h1⟩

/-- An object that is a group is the element of its number. -/
theorem group_elem (B : ObjectsOf objs items) {o : Oid} (h : OkKept items o) {c : GroupClass} {n : String} {l : List El} (e : objs o = .group c n l) : Live items o := by
  rcases h with h | ⟨p, i, k, m, h1, h2, h3⟩
  · exact absurd e ((isPart_name (part_of B h)).2.1 c n l)
  · have hd := defined_name B h1 h2
    rw [linked_defines h1, Option.map_eq_some_iff] at h2
    obtain ⟨a, h4, h5⟩ := h2
    by_cases hk : k = .netObj
    · simp [nameOf, e, hk, sectOf] at hd
    · have := (Prod.mk.inj h5).2
      rw [if_neg hk] at this
      rw [← this]
      exact .kept h3

/-- What something refers to is a definition that is kept or has no name of its own. -/
theorem refers_ok (B : ObjectsOf objs items) (R : Refs items) (hS : Settled items) {ag : Oid → String} {h : Oid → Dict String Oid} {o : Oid}
    (hr : Refers objs (tablesOf (Config.build ag h (linked items))) o) : OkKept items o := by
  induction hr with
  | @field a _ ha hf =>
    obtain ⟨h1, h2⟩ := field_live ha
    exact ok_kept hS h2 (field_ok B R h1 hf _ rfl)
  | member _ e hl ih =>
    obtain ⟨q, h1, h2⟩ := member_ok B R e _ hl
    cases h1
    exact ok_kept hS (group_elem B ih e) h2
  | @listed s m a _ c n l ht e hl =>
    obtain ⟨q, h1, h2⟩ := member_ok B R e _ hl
    cases h1
    refine ok_kept hS ?_ h2
    have hs1 : s ≠ .interface := by
      rintro rfl
      obtain ⟨j, hj, rfl⟩ := table_iface_mem ht
      obtain ⟨k, i, h3, h4⟩ := mem_linked.1 hj
      have hat := B.item k i h3
      rcases i with _ | _ | _ | _ | _ | _ | ⟨_, _, _ | _, _⟩ | _ | _ | _ | _ | _ | _ | _ | _ | _ | _ | _ <;> simp [CafFilter.link, Static.place] at h4
      subst h4
      have hat : objs k = .interface _ := hat
      rw [show objs k = .group c n l from e] at hat
      cases hat
    have hs2 : s ≠ .names := by rintro rfl; cases ht
    obtain ⟨k, rfl⟩ := sectOf_surj hs1 hs2
    rw [table_kept, kept_linked] at ht
    obtain ⟨p, hp, rfl⟩ := ht
    obtain ⟨⟨i, h3, h4⟩, -⟩ := id hp
    exact group_elem B (Or.inr ⟨p, i, k, m, h3, by rw [linked_defines h3, h4]; rfl, hp⟩) e

/-- The objects of an accepted text are as the theorems about the page want them. -/
theorem parsed (B : ObjectsOf objs items) (R : Refs items) (hS : Settled items) (ag : Oid → String) (h : Oid → Dict String Oid) :
    Parsed objs (linked items) (tablesOf (Config.build ag h (linked items))) where
  defines c x hx n o hd := by
    obtain ⟨k, i, h1, rfl⟩ := mem_linked.1 hx
    exact defined_name B h1 hd
  rules o ho := by
    obtain ⟨k, i, h1, h2⟩ := mem_linked.1 ho
    have hat := B.item k i h1
    rcases i with _ | _ | _ | _ | _ | _ | ⟨_, _, _ | _, _⟩ | _ | _ | _ | _ | _ | _ | _ | _ | _ | _ | _ <;> simp [CafFilter.link, Static.place] at h2
    subst h2
    obtain ⟨p, sh, sp, dh, dp, ic, os, e, -⟩ := hat
    exact ⟨_, _, _, _, _, _, _, _, e⟩
  nat x hx m o hm := by
    obtain ⟨k, i, h1, rfl⟩ := mem_linked.1 hx
    have hat := B.item k i h1
    rw [Static.place_natOf] at hm
    rcases i with _ | _ | _ | _ | _ | _ | ⟨_, _, _ | _, _⟩ | _ | _ | _ | _ | _ | _ | _ | _ | _ | _ | _ <;> simp [CafFilter.link, Config.natOf] at hm
    · obtain ⟨-, r, m', e, -⟩ := hat
      rw [← hm.2]
      exact ⟨_, _, e⟩
    · obtain ⟨r, m', e, -⟩ := hat
      have : o = k := by split at hm <;> simp at hm <;> exact hm.2.symm
      rw [this]
      exact ⟨_, _, e⟩
  names o ho := by
    obtain ⟨k, i, h1, h2⟩ := mem_linked.1 ho
    have hat := B.item k i h1
    rcases i with _ | _ | _ | _ | _ | _ | ⟨_, _, _ | _, _⟩ | _ | _ | _ | _ | _ | _ | _ | _ | _ | _ | _ <;> simp [CafFilter.link, Static.place] at h2
    subst h2
    exact ⟨_, hat⟩
  ifaces j hj := by
    obtain ⟨k, i, h1, h2⟩ := mem_linked.1 hj
    have hat := B.item k i h1
    rcases i with _ | _ | _ | _ | _ | _ | ⟨_, _, _ | _, _⟩ | _ | _ | _ | _ | _ | _ | _ | _ | _ | _ | _ <;> simp [CafFilter.link, Static.place] at h2
    subst h2
    exact hat
  members o c n l e x hx := by
    obtain ⟨q, h1, -⟩ := member_ok B R e x hx
    exact ⟨q, h1⟩
  addresses o n l e x hx := by
    have key : ∀ {hs : List Host}, Addresses objs items hs l → hostLinks objs x = [] := by
      intro hs ha
      obtain ⟨y, -, q, rfl, -, hq⟩ := each_mem ha hx
      rcases hq with hq | hq <;> simp [hostLinks, hq]
    by_cases hlt : o < items.length
    · have hi : items[o]? = some items[o] := List.getElem?_eq_getElem hlt
      have hat := B.item o _ hi
      generalize items[o] = i at hi hat
      cases i with
      | netObj m hs z d =>
        cases z with
        | none => obtain ⟨as, h1, h2⟩ := hat; rw [e] at h1; cases h1; exact key h2
        | some z => obtain ⟨-, _, _, h1, -⟩ := hat; rw [e] at h1; cases h1
      | nat => obtain ⟨_, _, h1, -⟩ := hat; rw [e] at h1; cases h1
      | rule => obtain ⟨_, _, _, _, _, _, _, h1, -⟩ := hat; rw [e] at h1; cases h1
      | netGroup | portGroup | svcGroup | icmpGroup | protoGroup => obtain ⟨_, h1, -⟩ := hat; rw [e] at h1; cases h1
      | _ => have h1 : objs o = _ := hat; rw [e] at h1; cases h1
    · rcases beyond B (Nat.le_of_not_lt hlt) with hp | ⟨_, _, _, _, _, _, -, -, h1, h2⟩
      · exact absurd e ((isPart_name hp).2.2.1 n l)
      · rw [e] at h1; cases h1; exact key h2
  refs o s n hr hn := by
    rcases refers_ok B R hS hr with h1 | ⟨p, i, c, m, h1, h2, h3⟩
    · rw [(isPart_name (part_of B h1)).1] at hn
      cases hn
    · have := defined_name B h1 h2
      rw [hn] at this
      cases this
      refine ⟨c, rfl, (kept_linked c n o).2 ⟨p, h3, ?_⟩⟩
      rw [linked_defines h1, Option.map_eq_some_iff] at h2
      obtain ⟨a, -, h5⟩ := h2
      exact (Prod.mk.inj h5).2.symm
  target o t hr e := by
    rcases refers_ok B R hS hr with h1 | ⟨p, i, c, m, h1, h2, h3⟩
    · rcases part_of B h1 with h | ⟨n, h⟩ | ⟨n, h⟩ | ⟨u, h, hu⟩
      · rw [e] at h; cases h
      · rw [e] at h; cases h
      · rw [e] at h; cases h
      · rw [e] at h
        cases h
        obtain ⟨n, a, d, ht⟩ := hu t rfl
        exact mem_linked.2 ⟨t, _, ht, rfl⟩
    · have := defined_name B h1 h2
      simp [nameOf, e] at this
  fresh o hr := by
    have hno : (∀ a b c d e f g h, objs o ≠ .rule a b c d e f g h) ∧ ∀ r m, objs o ≠ .nat r m := by
      rcases refers_ok B R hS hr with h1 | ⟨p, i, c, m, h1, h2, h3⟩
      · exact (isPart_name (part_of B h1)).2.2.2
      · have := defined_name B h1 h2
        constructor
        · intro a b c d e f g h hx; simp [nameOf, hx] at this
        · intro r m hx; simp [nameOf, hx] at this
    refine ⟨fun ho => ?_, fun x hx m hm => ?_⟩
    · obtain ⟨k, i, h1, h2⟩ := mem_linked.1 ho
      have hat := B.item k i h1
      rcases i with _ | _ | _ | _ | _ | _ | ⟨_, _, _ | _, _⟩ | _ | _ | _ | _ | _ | _ | _ | _ | _ | _ | _ <;> simp [CafFilter.link, Static.place] at h2
      subst h2
      obtain ⟨p, sh, sp, dh, dp, ic, os, e, -⟩ := hat
      exact hno.1 _ _ _ _ _ _ _ _ e
    · obtain ⟨k, i, h1, rfl⟩ := mem_linked.1 hx
      have hat := B.item k i h1
      rw [Static.place_natOf] at hm
      rcases i with _ | _ | _ | _ | _ | _ | ⟨_, _, _ | _, _⟩ | _ | _ | _ | _ | _ | _ | _ | _ | _ | _ | _ <;> simp [CafFilter.link, Config.natOf] at hm
      · obtain ⟨-, r, m', e, -⟩ := hat
        rw [hm.2] at e
        exact hno.2 _ _ e
      · obtain ⟨r, m', e, -⟩ := hat
        have : k = o := by split at hm <;> simp at hm <;> exact hm.2
        rw [this] at e
        exact hno.2 _ _ e

/-- What an object contributes and pulls in, all together. -/
def contents (objs : Oid → Obj) (o : Oid) : List El :=
  match objs o with
  | .address t => (t.map El.obj).toList ++ [.str "Names"]
  | .group c _ l => .str c.cls :: l
  | .netObject _ _ => [.str "NetworkObject"]
  | .svcObject _ => [.str "ServiceObject"]
  | .timeRange _ => [.str "TimeRange"]
  | .nat r m => .str "NAT" :: r.iface :: r.service :: m.iface :: m.service :: (r.src.toList ++ r.dst.toList ++ m.src.toList ++ m.dst.toList)
  | .rule id p sh sp dh dp ic os => p :: sh :: sp :: dh :: dp :: (ic.toList ++ os ++ [idEl id])
  | _ => []

theorem field_contents {objs : Oid → Obj} {o : Oid} {y : El} (h : Field (info objs) o y) : y ∈ contents objs o := by
  have rc : ∀ {r : RuleInfo}, info objs o = .rule r → ∃ id p sh sp dh dp ic os, objs o = .rule id p sh sp dh dp ic os ∧
      r = ⟨p, protocolName objs p, sh, sp, dp, dh, id, ic, os.filter (isTimeRange objs)⟩ := by
    intro r hr
    unfold info at hr
    split at hr <;> first | (cases hr; done) | skip
    rename_i e
    exact ⟨_, _, _, _, _, _, _, _, e, (Info.rule.inj hr).symm⟩
  have nc : ∀ {a b}, info objs o = .nat a b → ∃ r m, objs o = .nat r m ∧ a = some r ∧ b = some m := by
    intro a b hr
    unfold info at hr
    split at hr <;> first | (cases hr; done) | skip
    rename_i e
    exact ⟨_, _, e, (Info.nat.inj hr).1.symm, (Info.nat.inj hr).2.symm⟩
  cases h with
  | protocol h => obtain ⟨id, p, sh, sp, dh, dp, ic, os, e, rfl⟩ := rc h; simp [contents, e]
  | srcHost h => obtain ⟨id, p, sh, sp, dh, dp, ic, os, e, rfl⟩ := rc h; simp [contents, e]
  | dstHost h => obtain ⟨id, p, sh, sp, dh, dp, ic, os, e, rfl⟩ := rc h; simp [contents, e]
  | srcPort h => obtain ⟨id, p, sh, sp, dh, dp, ic, os, e, rfl⟩ := rc h; simp [contents, e]
  | dstPort h => obtain ⟨id, p, sh, sp, dh, dp, ic, os, e, rfl⟩ := rc h; simp [contents, e]
  | id h hi =>
    obtain ⟨id, p, sh, sp, dh, dp, ic, os, e, rfl⟩ := rc h
    simp only at hi
    simp [contents, e, hi, idEl]
  | noId h hi =>
    obtain ⟨id, p, sh, sp, dh, dp, ic, os, e, rfl⟩ := rc h
    simp only at hi
    simp [contents, e, hi, idEl]
  | icmp h _ hx =>
    obtain ⟨id, p, sh, sp, dh, dp, ic, os, e, rfl⟩ := rc h
    simp only at hx
    simp [contents, e, hx]
  | timeRange h hx =>
    obtain ⟨id, p, sh, sp, dh, dp, ic, os, e, rfl⟩ := rc h
    simp [contents, e, (List.mem_filter.1 hx).1]
  | natSrc h hs hx =>
    obtain ⟨r, m, e, rfl, rfl⟩ := nc h
    rcases hs with hs | hs <;> cases hs <;> simp [contents, e, hx]
  | natDst h hs hx =>
    obtain ⟨r, m, e, rfl, rfl⟩ := nc h
    rcases hs with hs | hs <;> cases hs <;> simp [contents, e, hx]
  | natIface h hs =>
    obtain ⟨r, m, e, rfl, rfl⟩ := nc h
    rcases hs with hs | hs <;> cases hs <;> simp [contents, e]
  | natService h hs =>
    obtain ⟨r, m, e, rfl, rfl⟩ := nc h
    rcases hs with hs | hs <;> cases hs <;> simp [contents, e]

theorem pulls_contents {objs : Oid → Obj} {o : Oid} {y : El} (h : Pulls (info objs) o y) : y ∈ contents objs o := by
  cases h with
  | member h hx =>
    unfold info at h
    split at h <;> first | (cases h; done) | skip
    rename_i e
    cases h
    simp [contents, e, hx]
  | groupLabel h =>
    unfold info at h
    split at h <;> first | (cases h; done) | skip
    rename_i e
    cases h
    simp [contents, e]
  | target h =>
    unfold info at h
    split at h <;> first | (cases h; done) | skip
    rename_i t e
    simp only [Info.host.injEq] at h
    simp [contents, e, h]
  | names h =>
    unfold info at h
    split at h <;> first | (cases h; done) | skip
    rename_i t e
    simp [contents, e]
  | label h =>
    unfold info at h
    split at h <;> first | (cases h; done) | skip
    all_goals (rename_i e; cases h; simp [contents, e])
  | iface h =>
    unfold info at h
    split at h <;> cases h
  | ifaceLabel h =>
    unfold info at h
    split at h <;> cases h
  | natLabel h =>
    unfold info at h
    split at h <;> first | (cases h; done) | skip
    rename_i e
    simp [contents, e]

theorem protoName (B : ObjectsOf objs items) (R : Refs items) {k : Nat} {r : AclText.PRule} (h : items[k]? = some (.rule r)) {p : El}
    (hp : ProtoAt objs items r.protocol p) : ∃ n, protocolName objs p = some n := by
  have hids := R.ids k _ h
  simp only [idsOf] at hids
  have key : ∀ c o, (c = .svcGroup ∨ c = .protoGroup ∨ c = .svcObj) → (c, o) ∈ protoIds r.protocol → IdAt items o p → ∃ n, protocolName objs p = some n := by
    intro c o hc hf hi
    obtain ⟨q, i, n, rfl, h1, h2, h3, -⟩ := id_ok h (by simp [idsOf, hf]) (hids (c, o) (by simp [hf])) hi
    have := defined_name B h1 (c := c) (n := n) (o := q) (by rw [linked_defines h1, h2, Option.map_some, if_neg h3])
    refine ⟨n, ?_⟩
    unfold nameOf at this
    unfold protocolName
    rcases hc with rfl | rfl | rfl <;> split at this <;> simp [sectOf] at this <;> simp_all
  generalize r.protocol = v at hp hids key
  cases v with
  | name n =>
    obtain ⟨q, rfl, -, e⟩ := hp
    exact ⟨n, by simp [protocolName, e]⟩
  | svcGroup o => exact key .svcGroup o (by simp) (by simp [protoIds]) hp
  | protoGroup o => exact key .protoGroup o (by simp) (by simp [protoIds]) hp
  | svcObj o => exact key .svcObj o (by simp) (by simp [protoIds]) hp

/-- What `resolve` asks for. -/
theorem holdsCfg {T : Type} (B : ObjectsOf objs items) (R : Refs items) : ∃ U, HoldsCfg (T := T) (info objs) (.fwsm items) U := by
  obtain ⟨all, hall⟩ := B.finite
  have hmem : ∀ o y, y ∈ contents objs o → y ∈ all.flatMap fun o => .obj o :: contents objs o := by
    intro o y hy
    have : o ∈ all := by
      refine hall o fun e => ?_
      simp [contents, e] at hy
    exact List.mem_flatMap.2 ⟨o, this, List.mem_cons_of_mem _ hy⟩
  have hrule : ∀ k x, RuleAt (T := T) (.fwsm items) k x → ∃ r n, info objs k = .rule r ∧ r.id = listOf x ∧ r.protoName = some n := by
    rintro k x ⟨r, h1, rfl⟩
    obtain ⟨p, sh, sp, dh, dp, ic, os, e, hp, -⟩ := B.item k _ h1
    obtain ⟨n, hn⟩ := protoName B R h1 hp
    refine ⟨⟨p, protocolName objs p, sh, sp, dp, dh, some r.id, ic, os.filter (isTimeRange objs)⟩, n, by simp [info, e], rfl, hn⟩
  have hnat : ∀ k x, NatAt (T := T) (.fwsm items) k x → ∃ a b, objs k = .nat a b := by
    rintro k x ⟨i, n, h1, h2, rfl⟩
    have hat := B.item k i h1
    cases h2 with
    | twice => obtain ⟨r, m, e, -⟩ := hat; exact ⟨r, m, e⟩
    | object => obtain ⟨-, r, m, e, -⟩ := hat; exact ⟨r, m, e⟩
  refine ⟨all.flatMap fun o => .obj o :: contents objs o, hrule, ?_, ?_, fun k x y _ hy => hmem k y (field_contents hy), fun o y _ hy => hmem o y (pulls_contents hy)⟩
  · intro k x hx
    obtain ⟨a, b, e⟩ := hnat k x hx
    exact ⟨a, b, by simp [info, e]⟩
  · intro k x hx
    have : k ∈ all := by
      refine hall k fun e => ?_
      rcases hx with hx | hx
      · obtain ⟨r, n, h1, -⟩ := hrule k x hx
        simp [info, e] at h1
      · obtain ⟨a, b, h1⟩ := hnat k x hx
        rw [e] at h1
        cases h1
    exact List.mem_flatMap.2 ⟨k, this, List.mem_cons_self ..⟩

end Acltk.Page

namespace Acltk.Static
open Acltk Acltk.Lookup Acltk.Detect Acltk.DetectText Acltk.Caf Acltk.Resolve Acltk.ExpandFilter Acltk.Web
open Acltk.Accepted (RuleAt NatAt HoldsCfg InUse listOf)
open Acltk.ConfigFilter (select)
open Acltk.Page (WellFormed Completes ObjectsOf Settled Kept Listed OnPage Anchored)
open Acltk.FileText (Holds)

variable {T : Type}

/-- What the theorems about pages ask of the objects holds of the objects of every accepted FWSM text whose references are to the definitions that are kept. -/
theorem fwsm_wellFormed {g : Guard} {pf : String → Detect.Outcome (Nat × Pf.Parsed T) Unit} {t : String} {items : List FwsmText.Item}
    (hc : detect g pf t = .config (.fwsm items)) {objs : Oid → Page.Obj} (B : ObjectsOf objs items) (hS : Settled items) :
    WellFormed objs (tables (T := T) (.fwsm items)) ∧ ∃ U, HoldsCfg (T := T) (Page.info objs) (.fwsm items) U := by
  obtain ⟨u, hp⟩ := Accepted.detect_inv hc
  have R := Page.refs_of hp
  exact ⟨Page.built_wellFormed _ _ _ _ (Page.parsed B R hS _ _), Page.holdsCfg B R⟩

/-- **C108, what is listed.** The tables behind the page of an FWSM text: the rules in the order of the text, the NAT entries, the
names, and under each name the object of its definition; of several definitions the first one for network objects, the last one for the other kinds. -/
theorem C108_listed {g : Guard} {pf : String → Detect.Outcome (Nat × Pf.Parsed T) Unit} {t : String} {items : List FwsmText.Item}
    (_hc : detect g pf t = .config (.fwsm items)) {objs : Oid → Page.Obj} (B : ObjectsOf objs items) :
    (tables (T := T) (.fwsm items)).rules.Pairwise (· < ·) ∧
    (∀ o, o ∈ (tables (T := T) (.fwsm items)).rules ↔ ∃ r, items[o]? = some (.rule r)) ∧
    (∀ o, o ∈ (tables (T := T) (.fwsm items)).nat ↔ (∃ x, items[o]? = some (.nat x)) ∨ ∃ n l x d, items[o]? = some (.netObj n l (some x) d)) ∧
    (∀ n o, Listed objs (tables (T := T) (.fwsm items)) .names n o ↔ ∃ a d, items[o]? = some (.name n a d)) ∧
    ∀ c n o, Listed objs (tables (T := T) (.fwsm items)) (Page.sectOf c) n o ↔
      ∃ p, Kept items c n p ∧ o = if c = .netObj then Page.objOid items p else p := by
  have hrules : ∀ o, o ∈ (tables (T := T) (.fwsm items)).rules ↔ ∃ r, items[o]? = some (.rule r) := by
    intro o
    rw [tables_rules]
    show o ∈ (Config.build (CafFilter.agName items) (fun _ => []) (CafFilter.number 0 items)).rules ↔ _
    rw [Config.C35_rules_in_file_order, CafFilter.number_rules]
    simp
  refine ⟨?_, hrules, ?_, ?_, ?_⟩
  · rw [tables_rules]
    show (Config.build (CafFilter.agName items) (fun _ => []) (CafFilter.number 0 items)).rules.Pairwise (· < ·)
    rw [Config.C35_rules_in_file_order]
    exact number_sorted items 0
  · intro o
    have hsec : ∀ x, x ∈ (tables (T := T) (.fwsm items)).nat ↔ ∃ i ∈ Page.linked items, ∃ m, Config.natOf i = some (m, x) := by
      intro x
      constructor
      · exact Page.mem_nat
      · rintro ⟨i, hi, m, hm⟩
        obtain ⟨h1, h2, h3, -⟩ := Config.C38_nat_sections (CafFilter.agName items) (fun _ => []) (Page.linked items)
        have hmem : ∀ k, m = k → x ∈ Config.natSection k (Page.linked items) := by
          rintro k rfl
          unfold Config.natSection
          exact List.mem_map.2 ⟨(m, x), List.mem_filter.2 ⟨List.mem_filterMap.2 ⟨i, hi, hm⟩, by simp⟩, rfl⟩
        have hm3 : m = 1 ∨ m = 2 ∨ m = 3 := by
          unfold Config.natOf at hm
          split at hm
          · cases hm; simp
          · split at hm <;> cases hm <;> simp
          · cases hm
        show x ∈ (Config.build _ _ _).nat1 ++ (Config.build _ _ _).nat2 ++ (Config.build _ _ _).nat3
        rw [h1, h2, h3, List.mem_append, List.mem_append]
        rcases hm3 with h | h | h
        · exact Or.inl (Or.inl (hmem _ h))
        · exact Or.inl (Or.inr (hmem _ h))
        · exact Or.inr (hmem _ h)
    rw [hsec]
    constructor
    · rintro ⟨x, hx, m, hm⟩
      obtain ⟨k, i, h1, rfl⟩ := Page.mem_linked.1 hx
      rw [place_natOf] at hm
      rcases i with _ | _ | _ | _ | _ | _ | ⟨_, _, _ | _, _⟩ | _ | _ | _ | _ | _ | _ | _ | _ | _ | _ | _ <;> simp [CafFilter.link, Config.natOf] at hm
      · rw [← hm.2]; exact Or.inr ⟨_, _, _, _, h1⟩
      · have : o = k := by split at hm <;> simp at hm <;> exact hm.2.symm
        rw [this]; exact Or.inl ⟨_, h1⟩
    · rintro (⟨x, h⟩ | ⟨n, l, x, d, h⟩)
      · refine ⟨_, Page.mem_linked.2 ⟨o, _, h, rfl⟩, ?_⟩
        show ∃ m, (if "after-auto" ∈ x.options ∨ "after-object" ∈ x.options then some (3, o) else some (1, o)) = some (m, o)
        split
        · exact ⟨3, rfl⟩
        · exact ⟨1, rfl⟩
      · exact ⟨_, Page.mem_linked.2 ⟨o, _, h, rfl⟩, 2, by rw [place_natOf]; rfl⟩
  · intro n o
    have : Listed objs (tables (T := T) (.fwsm items)) .names n o ↔ .name o ∈ Page.linked items ∧ objs o = .name n := by
      unfold Page.Listed
      rw [if_pos rfl]
      exact and_congr (Page.run_names (CafFilter.agName items) (fun _ => []) (Page.linked items) (Page.linked items) o) Iff.rfl
    rw [this]
    constructor
    · rintro ⟨h1, h2⟩
      obtain ⟨k, i, h3, h4⟩ := Page.mem_linked.1 h1
      have hat := B.item k i h3
      rcases i with _ | _ | _ | _ | _ | _ | ⟨_, _, _ | _, _⟩ | _ | _ | _ | _ | _ | _ | _ | _ | _ | _ | _ <;> simp [CafFilter.link, place] at h4
      subst h4
      have hat : objs o = .name _ := hat
      rw [h2] at hat
      cases hat
      exact ⟨_, _, h3⟩
    · rintro ⟨a, d, h⟩
      exact ⟨Page.mem_linked.2 ⟨o, _, h, rfl⟩, B.item o _ h⟩
  · intro c n o
    unfold Page.Listed
    rw [if_neg (Page.sectOf_ne c).2]
    show dGet ((Page.tablesOf (Config.build (CafFilter.agName items) (fun _ => []) (Page.linked items))).table (Page.sectOf c)) n = some o ↔ _
    rw [Page.table_kept, Page.kept_linked]

/-- **C108, without a filter.** For every settled FWSM text the page shows all of it; nothing is written exactly if `--sort` meets a member without a key. -/
theorem C108_no_filter_partial (s : Site T) (args : Args) (hcaf : args.caf = none) (hexp : args.expand = false) (file : List UInt8) (t : List Char) (ht : Holds t file)
    (items : List FwsmText.Item) (hc : detect s.guard (PfFilter.parser s.xml s.env) (String.ofList t) = .config (.fwsm items))
    (B : ObjectsOf (s.objs false (.fwsm items)) items) (hS : Settled items) (hK : (s.keys false (.fwsm items)).Total) :
    (main s args file = .raises ∧ args.sort = true ∧ NoKey (s.keys false (.fwsm items)) (s.objs false (.fwsm items)) (tables (T := T) (.fwsm items))) ∨
    ((args.sort = true → ¬ NoKey (s.keys false (.fwsm items)) (s.objs false (.fwsm items)) (tables (T := T) (.fwsm items))) ∧ ∃ w, main s args file = .written w ∧
      Members (s.keys false (.fwsm items)) (s.objs false (.fwsm items)) (tables (T := T) (.fwsm items)) args.sort w.objs ∧ Shows s (.fwsm items) w.objs none args.sns w) := by
  have := C104_no_filter_partial s args hcaf file t ht (.fwsm items) hc (by rw [hexp]; intro h; cases h)
    (by rw [hexp]; exact (fwsm_wellFormed hc B hS).1) (by rw [hexp]; exact hK)
  rwa [hexp] at this

/-- **C108, with a filter.** For every settled FWSM text and every filter the page shows what the filter selects, with everything that refers to; nothing is written
exactly if `--sort` meets a member without a key. -/
theorem C108_page_partial (s : Site T) (args : Args) (hexp : args.expand = false) (file : List UInt8) (t : List Char) (ht : Holds t file)
    (items : List FwsmText.Item) (hc : detect s.guard (PfFilter.parser s.xml s.env) (String.ofList t) = .config (.fwsm items))
    (ff : List UInt8) (hcaf : args.caf = some ff) (ft : List Char) (hft : Holds ft ff) (e : Expr) (rest : List Char)
    (hf : CafText.parse s.guard s.nest ft = .ok e rest)
    (B : ObjectsOf (s.objs false (.fwsm items)) items) (hS : Settled items) (hK : (s.keys false (.fwsm items)).Total)
    (ho0 : ∀ r x, x ∈ s.order0 r ↔ x ∈ r) (hord : ∀ n r x, x ∈ s.order n r ↔ x ∈ r) :
    ∃ N, ∀ fuel rounds, N ≤ fuel → N ≤ rounds → ∃ sel,
      select s.guard (PfFilter.parser s.xml s.env) (PfFilter.filter fuel) s.nest fuel ft (String.ofList t) = some (.ok sel) ∧
      let p := main { s with fuel := fuel, rounds := rounds } args file
      (p = .raises ∧ args.sort = true ∧ NoKey (s.keys false (.fwsm items)) (s.objs false (.fwsm items)) (tables (T := T) (.fwsm items))) ∨
      ((args.sort = true → ¬ NoKey (s.keys false (.fwsm items)) (s.objs false (.fwsm items)) (tables (T := T) (.fwsm items))) ∧
        ∃ w, p = .written w ∧ Members (s.keys false (.fwsm items)) (s.objs false (.fwsm items)) (tables (T := T) (.fwsm items)) args.sort w.objs ∧
          Shows s (.fwsm items) w.objs (some sel) args.sns w) := by
  obtain ⟨W, U, hU⟩ := fwsm_wellFormed hc B hS
  obtain ⟨N, h⟩ := C104_page_partial s args file t ht (.fwsm items) hc ff hcaf ft hft e rest hf (by rw [hexp]; intro h; cases h)
    (by rw [hexp]; exact W) (by rw [hexp]; exact hK) U (by rw [hexp]; exact hU) ho0 hord
  refine ⟨N, fun fuel rounds h1 h2 => ?_⟩
  obtain ⟨sel, i1, i2⟩ := h fuel rounds h1 h2
  refine ⟨sel, i1, ?_⟩
  rw [hexp] at i2
  rcases i2 with ⟨p1, ⟨k, x, n, -, -, -, hin⟩ | p2⟩ | ⟨-, p2, p3⟩
  · exact hin.elim
  · exact Or.inl ⟨p1, p2⟩
  · exact Or.inr ⟨p2, p3⟩

/-- **C108, links.** On the page of an settled FWSM text, whatever rules and NAT entries are selected, every link but those to interfaces has its anchor. -/
theorem C108_links_partial {g : Guard} {pf : String → Detect.Outcome (Nat × Pf.Parsed T) Unit} {t : String} {items : List FwsmText.Item}
    (hc : detect g pf t = .config (.fwsm items)) {objs : Oid → Page.Obj} (B : ObjectsOf objs items) (hS : Settled items)
    (lower : String → String) (inactive : Oid → Bool) (chosen : List Oid) (sel : Page.Sel)
    (hsel : Completes objs (tables (T := T) (.fwsm items)) chosen sel) (sns : Bool) (o : Oid)
    (ho : OnPage lower objs (idOf objs) inactive (tables (T := T) (.fwsm items)) sel sns o) (l : Page.Link) (hl : l ∈ Page.links objs o) (hi : l.1 ≠ .interface) :
    Anchored lower objs (tables (T := T) (.fwsm items)) sel sns l :=
  Page.C102_links_partial lower objs (idOf objs) inactive _ (fwsm_wellFormed hc B hS).1 chosen sel hsel sns o ho l hl hi

end Acltk.Static
