import Verif.Model.PfFilter
import Verif.Props.ConfigFilter
import Verif.Props.PfConfig
/-!
# C89: filtering a pfSense configuration
-/
namespace Acltk.PfFilter
open Acltk Acltk.Lookup Acltk.Detect Acltk.DetectText Acltk.Pf

variable {T : Type}

/-- What a rule element says of the attributes a filter looks at: where packets come from and go to (any, if it does not say), and
the list the rule belongs to. -/
structure States (t : Tables) (e : Elem) (r : PfRule T) : Prop where
  source : match lastChild e "source" with
    | none => r.src = ⟨.any, none⟩
    | some c => NodeMeans t c r.src
  destination : match lastChild e "destination" with
    | none => r.dst = ⟨.any, none⟩
    | some c => NodeMeans t c r.dst
  floating : Floating e → r.id = some "floating"
  interface : ¬ Floating e → ∃ i, lastChild e "interface" = some i ∧ r.id = i.text.map t.mapped

/-- The rule elements of a configuration, in their order. -/
def ruleElements (root : Elem) : List Elem := (sectionOf root "filter").filter (fun c => c.tag == "rule")

/-- The rule as the filter sees it. -/
def Stated (r : PfRule T) : Entry :=
  .rule { id := r.id, mode := some r.mode, src := ⟨r.src.host, none⟩, dst := ⟨r.dst.host, none⟩ }

theorem states {v : Env T} {t : Tables} {e : Elem} {r : PfRule T} (h : RuleFor v t e r) : States t e r := by
  obtain ⟨r0, h, hr⟩ := h
  obtain ⟨-, h1, h2, h3, h4, -, -, -, -, -, -, -, -, -, -, h5, h6, -⟩ := C47_rule v t e r0 h
  have e1 : r.src = r0.src := by rw [hr]
  have e2 : r.dst = r0.dst := by rw [hr]
  have e3 : r.id = r0.id := by rw [hr]
  refine ⟨?_, ?_, ?_, ?_⟩
  · cases hc : lastChild e "source" with
    | none => rw [e1]; exact h1 hc
    | some c => rw [e1]; exact h2 c hc
  · cases hc : lastChild e "destination" with
    | none => rw [e2]; exact h3 hc
    | some c => rw [e2]; exact h4 c hc
  · intro h; rw [e3]; exact (h5 h).1
  · intro h; rw [e3]; exact (h6 h).2

theorem All2.imp {α β : Type} {R S : α → β → Prop} {l : List α} {m : List β} (h : All2 R l m) (hi : ∀ x y, R x y → S x y) :
    All2 S l m := by
  induction h with
  | nil => exact .nil
  | cons h1 _ ih => exact .cons (hi _ _ h1) ih

theorem rules_build (n : Nat) (p : Parsed T) : (build n p).rules = List.range p.rules.length := by
  unfold build
  rw [Config.C35_rules_in_file_order]
  unfold items
  have h1 : ∀ l : List (AliasGroup × Nat), (l.map (fun x => linkGroup x.2 x.1)).filterMap Config.ruleOf = [] := by
    intro l
    rw [List.filterMap_map, List.filterMap_eq_nil_iff]
    rintro ⟨g, k⟩ -
    cases g <;> rfl
  have h2 : ∀ l : List (Ifc.Intf × Nat), (l.map (fun x => Config.Item.iface ⟨x.2, x.1.alias, x.1.nameif, x.1.addresses.map (·.2)⟩)).filterMap
      Config.ruleOf = [] := by
    intro l
    rw [List.filterMap_map, List.filterMap_eq_nil_iff]
    rintro x -
    rfl
  have h3 : ∀ l : List Nat, (l.map Config.Item.rule).filterMap Config.ruleOf = l := by
    intro l
    rw [List.filterMap_map]
    exact List.filterMap_some
  have h4 : (p.hostname.toList.map Config.Item.hostname).filterMap Config.ruleOf = [] := by
    rw [List.filterMap_map, List.filterMap_eq_nil_iff]
    rintro x -
    rfl
  have h5 : (List.replicate n (Config.Item.other 0)).filterMap Config.ruleOf = [] := by
    rw [List.filterMap_eq_nil_iff]
    intro x hx
    rw [(List.mem_replicate.1 hx).2]
    rfl
  simp only [List.filterMap_append, h1, h2, h3, h4, h5, List.nil_append, List.append_nil]

theorem nat_build (n : Nat) (p : Parsed T) : (build n p).nat1 = [] ∧ (build n p).nat2 = [] ∧ (build n p).nat3 = [] := by
  obtain ⟨h1, h2, h3, -⟩ := Config.C38_nat_sections (fun _ => "") (fun _ => []) (items n p)
  have h : (items n p).filterMap Config.natOf = [] := by
    rw [List.filterMap_eq_nil_iff]
    intro x hx
    simp only [items, List.mem_append, List.mem_map, List.mem_replicate] at hx
    rcases hx with (((⟨-, rfl⟩ | ⟨⟨g, k⟩, -, rfl⟩) | ⟨i, -, rfl⟩) | ⟨i, -, rfl⟩) | ⟨i, -, rfl⟩
    · rfl
    · cases g <;> rfl
    · rfl
    · rfl
    · rfl
  have e : ∀ m, Config.natSection m (items n p) = [] := by
    intro m; unfold Config.natSection; rw [h]; rfl
  rw [e] at h1 h2 h3
  exact ⟨h1, h2, h3⟩

theorem depth_bound (l : List (PfRule T)) : ∃ D, ∀ r ∈ l, EntryDepth D (Stated r) := by
  induction l with
  | nil => exact ⟨0, by simp⟩
  | cons r l ih =>
    obtain ⟨D, h⟩ := ih
    refine ⟨D + r.src.host.depth + r.dst.host.depth, ?_⟩
    intro x hx
    rcases List.mem_cons.1 hx with rfl | hx
    · simp only [EntryDepth, Stated]; omega
    · have := h x hx; simp only [EntryDepth, Stated] at this ⊢; omega

theorem detected (g : Guard) (xml : String → Option Elem) (v : Env T) (t : List Char) (root : Elem)
    (hx : xml (String.ofList ('<' :: t) ++ "\n") = some root) (p : Parsed T) (hp : Pf.parse v root = .ok p) :
    detect g (parser xml v) (String.ofList ('<' :: t)) = .config (.pfsense ((findall root "revision").length, p)) := by
  rw [C86_xml]
  unfold pfsenseParser parser
  rw [hx]
  simp only [hp]

theorem run_pf (c : Caf.Chain) (p : Parsed T) (hids : ∀ r ∈ p.rules, SaneId r.id) (e : Caf.Expr) (m : Nat)
    (h2 : ∀ (heap : Oid → Entry) (rules : List Oid) (D fuel : Nat),
      (∀ o ∈ rules, EntryOk (heap o)) → (∀ o ∈ rules, EntryDepth D (heap o)) → e.height + 3 + D + 5 ≤ fuel →
      ∃ r, Caf.run fuel heap rules e = .ok r ∧ r.Nodup ∧ ∀ o, o ∈ r ↔ o ∈ rules ∧ Caf.Meaning c (heap o)) :
    ∃ N, ∀ fuel, N ≤ fuel → ∃ r, Caf.run fuel (heap p) (build m p).rules e = .ok r ∧ r.Nodup ∧
      ∀ k, k ∈ r ↔ ∃ rule, p.rules[k]? = some rule ∧ Caf.Meaning c (Stated rule) := by
  obtain ⟨D, hD⟩ := depth_bound p.rules
  refine ⟨e.height + 3 + D + 5, fun fuel hfuel => ?_⟩
  have hheap : ∀ (o : Oid) r, p.rules[o]? = some r → heap p o = Stated r := by
    intro o r h
    unfold heap
    rw [h]
    rfl
  have hrules : ∀ o, o ∈ (build m p).rules ↔ ∃ r, p.rules[o]? = some r := by
    intro o
    rw [rules_build, List.mem_range]
    constructor
    · intro h; exact ⟨_, List.getElem?_eq_getElem h⟩
    · rintro ⟨r, h⟩; exact (List.getElem?_eq_some_iff.1 h).1
  obtain ⟨r, i1, i2, i3⟩ := h2 (heap p) (build m p).rules D fuel
    (by
      intro o ho
      obtain ⟨r, hr⟩ := (hrules o).1 ho
      rw [hheap o r hr]
      exact hids r (List.mem_of_getElem? hr))
    (by
      intro o ho
      obtain ⟨r, hr⟩ := (hrules o).1 ho
      rw [hheap o r hr]
      exact hD r (List.mem_of_getElem? hr))
    hfuel
  refine ⟨r, i1, i2, fun k => ?_⟩
  rw [i3, hrules]
  constructor
  · rintro ⟨⟨rule, h⟩, hm⟩
    rw [hheap k rule h] at hm
    exact ⟨rule, h, hm⟩
  · rintro ⟨rule, h, hm⟩
    exact ⟨⟨rule, h⟩, by rw [hheap k rule h]; exact hm⟩

/-- **C89.** A text that begins with `<`, that the XML reader reads as the tree `root` and whose tree is an acceptable pfSense
configuration: the rules of the configuration state, one by one and in order, what the rule elements say; and for a filter text the
program, which finds out the kind of the configuration itself, delivers exactly the positions of the rule elements that the
filter means, each once: `ACLRules` alone (examples/caf-filter.py) as well as `ACLConfig.filter` (examples/render/static.py). -/
theorem C89_filter_pfsense (g : Guard) (hg : CafText.NameGuard g) (xml : String → Option Elem) (v : Env T)
    (c : Caf.Chain) (ws : List CafText.Word) (filter : List Char) (n : Nat)
    (hc : CafText.ChainWords c ws) (ht : CafText.Written ws filter) (hok : Caf.ChainOk c) (hn : CafText.chainDepth c ≤ n)
    (text : List Char) (root : Elem) (hx : xml (String.ofList ('<' :: text) ++ "\n") = some root)
    (p : Parsed T) (hp : Pf.parse v root = .ok p) (hids : ∀ r ∈ p.rules, SaneId r.id) :
    (∃ t, TablesOf p.groups p.interfaces t ∧ All2 (States t) (ruleElements root) p.rules) ∧
    ∃ N, ∀ fuel, N ≤ fuel →
      (∃ r, DetectText.main g (parser xml v) rules n fuel filter (String.ofList ('<' :: text)) = some (.ok r) ∧ r.Nodup ∧
        ∀ k, k ∈ r ↔ ∃ rule, p.rules[k]? = some rule ∧ Caf.Meaning c (Stated rule)) ∧
      ∃ r, ConfigFilter.select g (parser xml v) (PfFilter.filter fuel) n fuel filter (String.ofList ('<' :: text)) = some (.ok r) ∧
        r.Nodup ∧ ∀ k, k ∈ r ↔ ∃ rule, p.rules[k]? = some rule ∧ Caf.Meaning c (Stated rule) := by
  obtain ⟨-, -, -, ⟨t, ht1, ht2⟩, -⟩ := C61_configuration v root p hp
  refine ⟨⟨t, ht1, ht2.imp (fun _ _ h => states h)⟩, ?_⟩
  obtain ⟨e, h1, h2⟩ := CafText.C73_filter_text_selects g hg c ws filter n hc ht hok hn
  obtain ⟨N, hN⟩ := run_pf c p hids e (findall root "revision").length h2
  have hd := detected g xml v text root hx p hp
  refine ⟨N + e.height + 10, fun fuel hfuel => ⟨?_, ?_⟩⟩
  · obtain ⟨r, i1, i2, i3⟩ := hN fuel (by omega)
    refine ⟨r, ?_, i2, i3⟩
    unfold DetectText.main
    rw [h1]
    simp only
    rw [hd]
    simp only [DetectText.rules, rules, i1]
  · obtain ⟨f, rfl⟩ : ∃ f, fuel = f + 1 := ⟨fuel - 1, by omega⟩
    obtain ⟨r, i1, i2, i3⟩ := hN f (by omega)
    obtain ⟨r', j1, -, j3⟩ := h2 (heap p) [] 0 f (by simp) (by simp) (by omega)
    obtain ⟨n1, n2, n3⟩ := nat_build (findall root "revision").length p
    refine ⟨setUnion (setUnion [] r) r', ?_, nodup_setUnion (nodup_setUnion (by simp)), fun k => ?_⟩
    · unfold ConfigFilter.select
      rw [hd]
      simp only
      rw [h1]
      simp only [PfFilter.filter, Caf.configFilter, n1, n2, n3, List.append_nil, i1, j1]
    · rw [mem_setUnion, mem_setUnion, j3, ← i3]
      simp

theorem sample_ids {p : Parsed Nat} (hp : Pf.parse sampleEnv sampleConfig = .ok p) : ∀ r ∈ p.rules, SaneId r.id := by
  have h : (match Pf.parse sampleEnv sampleConfig with
    | .ok p => p.rules.all (fun r => r.id == some "wan")
    | .error _ => false) = true := by decide +kernel
  rw [hp] at h
  intro r hr
  have := List.all_eq_true.1 h r hr
  simp only [beq_iff_eq] at this
  rw [this]
  intro s b hs hpat
  cases hs
  have := congrArg (fun s => s.toList.head?) hpat.1
  simp at this

/-- The hypotheses are met by the sample filter and the sample configuration, for a reader that reads a text as that tree. -/
theorem C89_sample : ∃ p, Pf.parse sampleEnv sampleConfig = .ok p ∧ ∃ N, ∀ fuel, N ≤ fuel →
    ∃ r, DetectText.main tatsuGuard (parser (fun _ => some sampleConfig) sampleEnv) rules 4 fuel CafText.sampleText
      (String.ofList ('<' :: "pfsense/>".toList)) = some (.ok r) ∧ r.Nodup ∧
      ∀ k, k ∈ r ↔ ∃ rule, p.rules[k]? = some rule ∧ Caf.Meaning CafText.sampleChain (Stated rule) := by
  obtain ⟨p, hp, -⟩ := C61_sample
  refine ⟨p, hp, ?_⟩
  have hids := sample_ids hp
  obtain ⟨-, N, hN⟩ := C89_filter_pfsense tatsuGuard CafText.tatsuGuard_caf (fun _ => some sampleConfig) sampleEnv CafText.sampleChain
    CafText.sampleWords CafText.sampleText 4 CafText.sampleWords_chain (CafText.writtenB_sound _ _ (by decide +kernel))
    CafText.sampleChain_ok (by decide) "pfsense/>".toList sampleConfig rfl p hp hids
  exact ⟨N, fun fuel hf => (hN fuel hf).1⟩

/-- **C89.** A text that begins with `<` and that the XML reader refuses, or whose tree is not an acceptable pfSense configuration,
is refused with an ordinary exception, and both programs deliver nothing; there is no third case besides these and the accepted trees. -/
theorem C89_refused (g : Guard) (xml : String → Option Elem) (v : Env T) (text : List Char)
    (h : ∀ root p, xml (String.ofList ('<' :: text) ++ "\n") = some root → Pf.parse v root ≠ .ok p) :
    detect g (parser xml v) (String.ofList ('<' :: text)) = .exception () ∧
    ∀ n fuel filter e rest, CafText.parse g n filter = .ok e rest →
      DetectText.main g (parser xml v) rules n fuel filter (String.ofList ('<' :: text)) = none ∧
      ConfigFilter.select g (parser xml v) (PfFilter.filter fuel) n fuel filter (String.ofList ('<' :: text)) = none := by
  have hd : detect g (parser xml v) (String.ofList ('<' :: text)) = .exception () := by
    rw [C86_xml]
    unfold pfsenseParser parser
    cases hx : xml (String.ofList ('<' :: text) ++ "\n") with
    | none => rfl
    | some root =>
      cases hp : Pf.parse v root with
      | error x => simp only [hp]
      | ok p => exact absurd hp (h root p hx)
  refine ⟨hd, fun n fuel filter e rest he => ⟨?_, ?_⟩⟩
  · unfold DetectText.main
    rw [he]
    simp only
    rw [hd]
  · unfold ConfigFilter.select
    rw [hd]

/-- A tree of another kind is refused. -/
theorem C89_refused_sample (g : Guard) :
    detect g (parser (fun _ => some ⟨"html", none, []⟩) sampleEnv) (String.ofList ('<' :: "html/>".toList)) = .exception () := by
  refine (C89_refused g _ sampleEnv _ ?_).1
  intro root p hr hp
  cases hr
  have h : (match Pf.parse sampleEnv ⟨"html", none, []⟩ with | .ok _ => false | .error _ => true) = true := by decide +kernel
  rw [hp] at h
  cases h

end Acltk.PfFilter
