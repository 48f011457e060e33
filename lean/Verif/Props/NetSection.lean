import Verif.Spec.NetSectionSpec
import Verif.Lemmas.NameWords
import Verif.Props.Section
/-!
# C121: what the sections of names, network objects and network groups say
-/
namespace Acltk.Cells
open Acltk Acltk.FwsmText

/-- The kind of a section of a name is told by its anchor. -/
theorem kind_unique {k k' : NetKind} {n : String} (h : k.prefix ++ n = k'.prefix ++ n) : k = k' := by
  have h := congrArg String.toList h
  cases k <;> cases k' <;> first | rfl | (exfalso; simp [NetKind.prefix, String.toList_append] at h)

theorem cells_iff {w : Bool} {l : List Host} (names : Nat → Option String) (h : ∀ x ∈ l, Configured w x) (xs : List Shown) : Each Reads (hostCells names l) xs ↔ Each Is l xs := by
  induction l generalizing names xs with
  | nil => constructor <;> intro e <;> cases e <;> exact .nil
  | cons a l ih =>
    have ih := fun xs => ih (fun k => names (k + 1)) (fun x hx => h x (List.mem_cons_of_mem _ hx)) xs
    have ha := fun x => C115_host (names 0) a (h a List.mem_cons_self) x
    constructor
    · intro e
      cases e with
      | cons h1 h2 => exact .cons ((ha _).1 h1) ((ih _).1 h2)
    · intro e
      cases e with
      | cons h1 h2 => exact .cons ((ha _).2 h1) ((ih _).2 h2)

theorem one_iff {a : Addr} (ha : a.Valid) (xs : List Shown) : Each Reads [.text a.text] xs ↔ xs = [.address a] := by
  have h := fun x => C115_host none (wild := false) (.host a) (.host a ha) x
  constructor
  · intro e
    cases e with
    | cons h1 h2 =>
      cases h2
      have := (h _).1 h1
      cases this
      rfl
  · rintro rfl
    exact .cons ((h _).2 (.address a)) .nil

/-- What the section of a definition needs. -/
def NetItemOk (w : Bool) : Item → Prop
  | .name _ a _ => a.Valid
  | .netObj n l _ _ => Configured w (.obj n l)
  | .netGroup n l _ => Configured w (.group n l)
  | _ => True

theorem shown_ext {x : NetSecShown} {k : NetKind} {n : String} {d : List Char} (h1 : k.prefix ++ n = x.kind.prefix ++ x.name) (h2 : n.toList = x.name.toList) (h3 : d = x.description) :
    x = ⟨k, n, x.hosts, d⟩ := by
  obtain ⟨k', n', hs, d'⟩ := x
  obtain rfl := String.toList_inj.1 h2
  obtain rfl := kind_unique h1
  cases h3
  rfl

/-- **C121.** The section of a name, network object or network group is read as exactly that definition. -/
theorem C121_section {w : Bool} (names : Nat → Option String) (i : Item) (hi : NetItemOk w i) (c : NetSection) (hc : netSection names i = some c) (x : NetSecShown) : ReadsNet c x ↔ NetSecIs i x := by
  cases i <;> simp only [netSection, Option.some.injEq, reduceCtorEq] at hc
  case name n a d =>
    subst hc
    constructor
    · intro h
      have e := shown_ext (k := .alias) h.anchor h.heading h.description
      have := (one_iff hi _).1 h.hosts
      rw [e, this]
      exact .alias n a d
    · intro h
      cases h
      exact ⟨rfl, rfl, (one_iff hi _).2 rfl, rfl⟩
  case netObj n l nat d =>
    subst hc
    have hl : ∀ y ∈ l, Configured w y := by cases hi with | obj _ _ h _ => exact h
    constructor
    · intro h
      rw [shown_ext (k := .object) h.anchor h.heading h.description]
      exact .object ((cells_iff names hl _).1 h.hosts)
    · intro h
      cases h with
      | object h => exact ⟨rfl, rfl, (cells_iff names hl _).2 h, rfl⟩
  case netGroup n l d =>
    subst hc
    have hl : ∀ y ∈ l, Configured w y := by cases hi with | group _ _ h => exact h
    constructor
    · intro h
      rw [shown_ext (k := .group) h.anchor h.heading h.description]
      exact .group ((cells_iff names hl _).1 h.hosts)
    · intro h
      cases h with
      | group h => exact ⟨rfl, rfl, (cells_iff names hl _).2 h, rfl⟩

theorem fwsm_ok {g : Lookup.Guard} {t u : List Char} {items : List Item} (h : parseFile g t = .ok items u) {i : Item} (hi : i ∈ items) : NetItemOk false i := by
  have h1 := parseFile_items h i hi
  have h2 := parseFile_names h i hi
  cases i <;> first | exact trivial | exact h2 | exact h1 | exact h1.1

/-- **C121, FWSM/ASA texts.** Whatever text is accepted, the section of every name, network object and network group is read as exactly that definition. -/
theorem C121_fwsm (g : Lookup.Guard) (t u : List Char) (items : List Item) (h : parseFile g t = .ok items u) (i : Item) (hi : i ∈ items) (names : Nat → Option String) (c : NetSection)
    (hc : netSection names i = some c) (x : NetSecShown) : ReadsNet c x ↔ NetSecIs i x :=
  C121_section names i (fwsm_ok h hi) c hc x

/-- **C121, IOS texts.** The same of the network groups of IOS texts. -/
theorem C121_ios (g : Lookup.Guard) (t u : List Char) (items : List IosText.Item) (h : IosText.parseFile g t = .ok items u) (n : String) (l : List Host) (d : Option (List Char))
    (hi : IosText.Item.base (.netGroup n l d) ∈ items) (names : Nat → Option String) (c : NetSection) (hc : netSection names (.netGroup n l d) = some c) (x : NetSecShown) :
    ReadsNet c x ↔ NetSecIs (.netGroup n l d) x :=
  C121_section (w := true) names (.netGroup n l d) (IosText.parseFile_items h _ hi : Configured true (.group n l)) c hc x

theorem each_is {w : Bool} {l : List Host} (h : ∀ x ∈ l, Configured w x) : ∃ xs, Each Is l xs :=
  each_exists fun a ha => (shown none (h a ha)).imp fun _ hx => hx.1

/-- The section can be read. -/
theorem C121_shown (g : Lookup.Guard) (t u : List Char) (items : List Item) (h : parseFile g t = .ok items u) (i : Item) (hi : i ∈ items) (hk : NetSectioned i) (names : Nat → Option String) :
    ∃ c x, netSection names i = some c ∧ ReadsNet c x := by
  have ho := fwsm_ok h hi
  have : ∃ x, NetSecIs i x := by
    cases hk with
    | alias n a d => exact ⟨_, .alias n a d⟩
    | object n l nat d =>
      obtain ⟨xs, hx⟩ := each_is (w := false) (l := l) (by cases ho with | obj _ _ h _ => exact h)
      exact ⟨_, .object hx⟩
    | group n l d =>
      obtain ⟨xs, hx⟩ := each_is (w := false) (l := l) (by cases ho with | group _ _ h => exact h)
      exact ⟨_, .group hx⟩
  obtain ⟨x, hx⟩ := this
  obtain ⟨c, hc⟩ : ∃ c, netSection names i = some c := by cases hk <;> exact ⟨_, rfl⟩
  exact ⟨c, x, hc, (C121_fwsm g t u items h i hi names c hc x).2 hx⟩

/-- Equal sections are sections of definitions of the same kind, name, hosts and description. -/
theorem C121_equal_sections (g g' : Lookup.Guard) (t u t' u' : List Char) (items items' : List Item) (h : parseFile g t = .ok items u) (h' : parseFile g' t' = .ok items' u')
    (i i' : Item) (hi : i ∈ items) (hi' : i' ∈ items') (names names' : Nat → Option String) (c : NetSection) (hc : netSection names i = some c) (hc' : netSection names' i' = some c) (x : NetSecShown) :
    NetSecIs i x ↔ NetSecIs i' x := by
  rw [← C121_fwsm g t u items h i hi names c hc, ← C121_fwsm g' t' u' items' h' i' hi' names' c hc']

/-- The section of the last definition of a text that is accepted. -/
def lastSection (t : String) : Option NetSection :=
  match parseFile Lookup.tatsuGuard t.toList with
  | .ok l _ => (l.getLast?).bind (netSection (fun _ => none))
  | _ => none

/-- The hypotheses are met: a name, an object and a group that contains it. -/
theorem C121_sample :
    lastSection "name 10.0.0.1 gw description the gateway\n" = some ⟨"name_alias_gw", "gw".toList, [.text "10.0.0.1".toList], " the gateway".toList⟩ ∧
    lastSection "object network web\n host 10.0.0.5\n" = some ⟨"network_object_web", "web".toList, [.text "10.0.0.5".toList], []⟩ ∧
    lastSection "object network web\n host 10.0.0.5\nobject-group network g\n network-object object web\n network-object 10.0.0.0 255.0.0.0\n" =
      some ⟨"network_group_g", "g".toList, [.link "network_object_web" "web".toList, .text "10.0.0.0/8".toList], []⟩ := by
  refine ⟨?_, ?_, ?_⟩ <;> decide +kernel

end Acltk.Cells
