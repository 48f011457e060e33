import Verif.Model.IosConfig
import Verif.Props.CafFilter
import Verif.Props.IosFile
/-!
# C82, C83, C85: the rules, routes and access groups of an IOS text, and filtering it
-/
namespace Acltk.IosConfig
open Acltk Acltk.Lookup
open Acltk.IosText (Item IRule Route Gateway File Same SameItems SameRule SameRules rulesOf routesOf Ends sameItems_join)

/-! ## the rules -/

theorem range_map_add (a b r : Nat) : (List.range (a + b)).map (r + ·) =
    (List.range a).map (r + ·) ++ (List.range b).map ((r + a) + ·) := by
  rw [List.range_add, List.map_append, List.map_map]
  congr 1
  apply List.map_congr_left
  intro x _
  simp only [Function.comp]
  omega

theorem link_base_rules (k : Nat) (b : FwsmText.Item) (h : ∀ r, b ≠ .rule r) : Config.rulesIn (CafFilter.link k b) = [] := by
  cases b with
  | rule r => exact absurd rfl (h r)
  | _ => rfl

/-- No element of the shared kinds is a rule. -/
def NoBase (items : List Item) : Prop := ∀ r, Item.base (.rule r) ∉ items

theorem number_rules (items : List Item) (hn : NoBase items) : ∀ (k r : Nat) (d : Dict Ifc.Intf Oid),
    (number k r d items).flatMap Config.rulesIn = (List.range (rulesOf items).length).map (r + ·) := by
  induction items with
  | nil => intro k r d; rfl
  | cons i is ih =>
    intro k r d
    have ih := ih (fun x hx => hn x (by simp [hx]))
    rw [number, List.flatMap_cons, ih]
    cases i with
    | base b =>
      rw [show link k r d (.base b) = CafFilter.link k b from rfl, link_base_rules k b (by rintro x rfl; exact hn x (by simp))]
      rfl
    | rule x =>
      show [r] ++ _ = (List.range ((rulesOf is).length + 1)).map (r + ·)
      rw [Nat.add_comm (rulesOf is).length 1, range_map_add 1]
      rfl
    | rules l =>
      show (List.range l.length).map (r + ·) ++ _ = (List.range (l ++ rulesOf is).length).map (r + ·)
      rw [List.length_append, range_map_add]
      rfl
    | route x => rfl

/-- The rules of the configuration object are the rules of the parse result, in their order. -/
theorem build_rules (items : List Item) (hn : NoBase items) :
    (build items).base.rules = List.range (rulesOf items).length := by
  unfold build
  rw [Config.C35_ios_rules_in_file_order, number_rules items hn]
  simp

theorem same_rules_get {l m : List IRule} (h : SameRules l m) (o : Nat) :
    (∀ r, l[o]? = some r → ∃ r', m[o]? = some r' ∧ entry r' = entry r) ∧ l.length = m.length := by
  induction h generalizing o with
  | nil => simp
  | cons r r' l m h _ ih =>
    have he : entry r' = entry r := by
      rw [← h.2]; rfl
    refine ⟨?_, by simp [(ih 0).2]⟩
    cases o with
    | zero => intro x hx; simp at hx; subst hx; exact ⟨r', rfl, he⟩
    | succ o => simpa using (ih o).1

/-! ## texts -/

theorem file_noBase {s s' : FwsmText.St} {t : List Char} {is : List Item} (h : File s t is s') : NoBase is := by
  induction h with
  | nil => intro r hr; simp at hr
  | cmd s s' s'' t u is js hc _ ih =>
    intro r hr
    rcases List.mem_append.1 hr with hr | hr
    · cases hc <;> simp at hr
    · exact ih r hr

theorem same_noBase {is js : List Item} (h : SameItems is js) (hn : NoBase is) : NoBase js := by
  induction h with
  | nil => exact hn
  | cons i j is js hij _ ih =>
    intro r hr
    rcases List.mem_cons.1 hr with hr | hr
    · subst hr
      cases hij
      exact hn r (by simp)
    · exact ih (fun x hx => hn x (by simp [hx])) r hr

theorem numRule_id {e : AclText.Env} {ws : List String} {r : IRule} (h : IosText.NumRule e ws r) : AclText.IdWord r.id := by
  cases h with
  | extended i ws r hi _ => exact IosText.extNumber_idWord hi
  | standard i ws r hi _ => exact IosText.stdNumber_idWord hi

theorem rulesOf_append (a b : List Item) : rulesOf (a ++ b) = rulesOf a ++ rulesOf b := by
  induction a with
  | nil => rfl
  | cons i a ih => cases i <;> simp [rulesOf, ih]

theorem file_ids {s s' : FwsmText.St} {t : List Char} {is : List Item} (h : File s t is s') :
    ∀ r ∈ rulesOf is, AclText.IdWord r.id := by
  induction h with
  | nil => intro r hr; simp [rulesOf] at hr
  | cmd s s' s'' t u is js hc _ ih =>
    intro r hr
    rw [rulesOf_append] at hr
    rcases List.mem_append.1 hr with hr | hr
    · cases hc with
      | rule rt l rs ws r' _ hw _ =>
        simp [rulesOf] at hr; subst hr
        exact (numRule_id hw : AclText.IdWord r'.id)
      | extended n l t rs hn _ _ =>
        simp only [rulesOf, List.append_nil, List.mem_map] at hr
        obtain ⟨x, -, rfl⟩ := hr
        exact hn
      | standard n l t rs hn _ _ =>
        simp only [rulesOf, List.append_nil, List.mem_map] at hr
        obtain ⟨x, -, rfl⟩ := hr
        exact hn
      | ipv6List n l t rs hn _ _ _ =>
        simp only [rulesOf, List.append_nil, List.mem_map] at hr
        obtain ⟨x, -, rfl⟩ := hr
        exact hn
      | _ => simp [rulesOf] at hr
    · exact ih r hr

theorem depth_bound (l : List IRule) : ∃ D, ∀ r ∈ l, EntryDepth D (.rule (entry r)) := by
  induction l with
  | nil => exact ⟨0, by simp⟩
  | cons r l ih =>
    obtain ⟨D, h⟩ := ih
    refine ⟨D + r.src.host.depth + r.dst.host.depth, ?_⟩
    intro x hx
    rcases List.mem_cons.1 hx with rfl | hx
    · simp only [EntryDepth, entry]; omega
    · have := h x hx; simp only [EntryDepth] at this ⊢; omega

/-- The rule a line of the configuration states: its list, source and destination. -/
def Stated (r : IRule) : Entry :=
  .rule { id := some r.id, extended := r.extended, mode := some r.mode, src := ⟨r.src.host, none⟩, dst := ⟨r.dst.host, none⟩ }

/-- **C83**: from a filter text and an IOS configuration text to the selected rules.  The configuration consists of commands
that stand for `items`, and ends or goes on with `line` or `end`; the filter of words that stand for `c`.  Given enough stack the
program delivers, without duplicates, exactly the positions, among the rules of the configuration, of those that the
filter means. -/
theorem C83_filter_ios_configuration (g : Guard) (hg : FwsmText.NameGuard g) (hg' : CafText.NameGuard g)
    (c : Caf.Chain) (ws : List CafText.Word) (filter : List Char) (n : Nat)
    (hc : CafText.ChainWords c ws) (ht : CafText.Written ws filter) (hok : Caf.ChainOk c) (hn : CafText.chainDepth c ≤ n)
    (config : List Char) (items : List Item) (s : FwsmText.St)
    (hf : File { env := { guard := g } } config items s) (hne : items ≠ []) (e : List Char) (hend : Ends e) :
    ∃ N, ∀ fuel, N ≤ fuel → ∃ r, main g n fuel filter (config ++ e) = some (.ok r) ∧ r.Nodup ∧
      ∀ k, k ∈ r ↔ ∃ rule, (rulesOf items)[k]? = some rule ∧ Caf.Meaning c (Stated rule) := by
  obtain ⟨e', h1, h2⟩ := CafText.C73_filter_text_selects g hg' c ws filter n hc ht hok hn
  obtain ⟨items', u, h3, h4⟩ := IosText.C80_file_read_as_written g hg config items s hf hne e hend
  have hsr := IosText.same_rulesOf h3
  obtain ⟨D, hD⟩ := depth_bound (rulesOf items)
  refine ⟨e'.height + 3 + D + 5, ?_⟩
  intro fuel hfuel
  have hb : (build items').base.rules = List.range (rulesOf items).length := by
    rw [build_rules items' (same_noBase h3 (file_noBase hf)), (same_rules_get hsr 0).2]
  have hrules : ∀ o, o ∈ (build items').base.rules ↔ ∃ r, (rulesOf items)[o]? = some r := by
    intro o
    rw [hb, List.mem_range]
    constructor
    · intro h; exact ⟨_, List.getElem?_eq_getElem h⟩
    · rintro ⟨r, h⟩; exact (List.getElem?_eq_some_iff.1 h).1
  have hheap : ∀ o r, (rulesOf items)[o]? = some r → heap items' o = Stated r := by
    intro o r h
    obtain ⟨r', h', he⟩ := (same_rules_get hsr o).1 r h
    unfold heap
    rw [h']
    simp only [he]
    rfl
  obtain ⟨r, i1, i2, i3⟩ := h2 (heap items') (build items').base.rules D fuel
    (by
      intro o ho
      obtain ⟨r, hr⟩ := (hrules o).1 ho
      rw [hheap o r hr]
      exact CafFilter.idWord_sane (file_ids hf r (List.mem_of_getElem? hr)))
    (by
      intro o ho
      obtain ⟨r, hr⟩ := (hrules o).1 ho
      rw [hheap o r hr]
      exact hD r (List.mem_of_getElem? hr))
    hfuel
  refine ⟨r, ?_, i2, ?_⟩
  · unfold main parse
    rw [h1]
    simp only
    rw [h4]
    simp only
    rw [i1]
  · intro k
    rw [i3, hrules]
    constructor
    · rintro ⟨⟨rule, h⟩, hm⟩
      rw [hheap k rule h] at hm
      exact ⟨rule, h, hm⟩
    · rintro ⟨rule, h, hm⟩
      exact ⟨⟨rule, h⟩, by rw [hheap k rule h]; exact hm⟩

/-- The hypotheses are met by the sample filter and the sample configuration. -/
theorem C83_sample : ∃ N, ∀ fuel, N ≤ fuel →
    ∃ r, main tatsuGuard 4 fuel CafText.sampleText (IosText.sampleText ++ IosText.sampleEnd) = some (.ok r) ∧ r.Nodup ∧
      ∀ k, k ∈ r ↔ ∃ rule, (rulesOf IosText.sampleItems)[k]? = some rule ∧ Caf.Meaning CafText.sampleChain (Stated rule) := by
  obtain ⟨s, hs⟩ := IosText.sample_file
  exact C83_filter_ios_configuration tatsuGuard FwsmText.tatsuGuard_name CafText.tatsuGuard_caf CafText.sampleChain CafText.sampleWords
    CafText.sampleText 4 CafText.sampleWords_chain (CafText.writtenB_sound _ _ (by decide +kernel)) CafText.sampleChain_ok (by decide)
    IosText.sampleText IosText.sampleItems s hs (by simp [IosText.sampleItems]) IosText.sampleEnd
    (.word "line" " con 0\n access-class 10 in\nend\n".toList (by decide) ⟨_, Or.inl rfl⟩)

end Acltk.IosConfig
