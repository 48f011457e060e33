import Verif.Props.Render
import Verif.Props.PfFilter
/-!
# C90: completing the selection of a filter on a pfSense text
-/
namespace Acltk.Render
open Acltk Acltk.Lookup Acltk.Detect Acltk.DetectText Acltk.Caf Acltk.Resolve Acltk.Pf

variable {T : Type}

theorem pf_oids (n : Nat) (p : Parsed T) : (((PfFilter.items n p).filterMap Config.ifaceOf).map (·.oid)).Nodup := by
  have h1 : ∀ l : List (AliasGroup × Nat), (l.map (fun x => PfFilter.linkGroup x.2 x.1)).filterMap Config.ifaceOf = [] := by
    intro l
    rw [List.filterMap_map, List.filterMap_eq_nil_iff]
    rintro ⟨g, k⟩ -
    cases g <;> rfl
  have h2 : ∀ l : List (Ifc.Intf × Nat), ((l.map (fun x => Config.Item.iface ⟨x.2, x.1.alias, x.1.nameif, x.1.addresses.map (·.2)⟩)).filterMap
      Config.ifaceOf).map (·.oid) = l.map (·.2) := by
    intro l
    induction l with
    | nil => rfl
    | cons x l ih => rw [List.map_cons, List.filterMap_cons, List.map_cons]; simp only [Config.ifaceOf, List.map_cons, ih]
  have h3 : ∀ l : List Nat, (l.map Config.Item.rule).filterMap Config.ifaceOf = [] := by
    intro l
    rw [List.filterMap_map, List.filterMap_eq_nil_iff]
    rintro x -
    rfl
  have h4 : (p.hostname.toList.map Config.Item.hostname).filterMap Config.ifaceOf = [] := by
    rw [List.filterMap_map, List.filterMap_eq_nil_iff]
    rintro x -
    rfl
  have h5 : (List.replicate n (Config.Item.other 0)).filterMap Config.ifaceOf = [] := by
    rw [List.filterMap_eq_nil_iff]
    intro x hx
    rw [(List.mem_replicate.1 hx).2]
    rfl
  unfold PfFilter.items
  simp only [List.filterMap_append, h1, h3, h4, h5, List.nil_append, List.append_nil, h2]
  rw [List.zipIdx_eq_zip_range', List.map_snd_zip (by simp)]
  exact List.nodup_range'

/-- A pfSense configuration has an empty table of access groups. -/
theorem pf_keys (c : Nat × Parsed T) : pfKeys c = [] := by
  apply List.eq_nil_iff_forall_not_mem.2
  intro n hn
  unfold pfKeys PfFilter.build at hn
  rw [key_iff, Config.C39_access_groups_table _ _ _ _ (pf_oids c.1 c.2)] at hn
  apply hn
  simp [dVals]

/-- The heap holds the rules of that parse result — each has a protocol with a name (pfsenseSemantics.py:352) — and refers to
finitely many objects. -/
structure HoldsPf (info : Oid → Info) (p : Parsed T) (U : List El) : Prop where
  rule : ∀ o r, p.rules[o]? = some r → ∃ i n, info o = .rule i ∧ i.id = r.id ∧ i.protoName = some n
  all : ∀ o, o < p.rules.length → .obj o ∈ U
  fields : ∀ o x, o < p.rules.length → Field info o x → x ∈ U
  pulls : ∀ o x, .obj o ∈ U → Pulls info o x → x ∈ U

/-- **C90**, pfSense: the page of examples/render/static.py for a text that the XML reader reads as the tree of an acceptable
configuration.  Whatever the order in which sets are iterated, `resolve` completes the selection without raising, and the result is
the closure of the selected rules. -/
theorem C90_render_pfsense (g : Guard) (hg : CafText.NameGuard g) (xml : String → Option Elem) (v : Pf.Env T)
    (c : Caf.Chain) (ws : List CafText.Word) (filter : List Char) (n : Nat)
    (hc : CafText.ChainWords c ws) (ht : CafText.Written ws filter) (hok : Caf.ChainOk c) (hn : CafText.chainDepth c ≤ n)
    (text : List Char) (root : Elem) (hx : xml (String.ofList ('<' :: text) ++ "\n") = some root)
    (p : Parsed T) (hp : Pf.parse v root = .ok p) (hids : ∀ r ∈ p.rules, SaneId r.id)
    (heaps : Heaps) (heap : Nat × Parsed T → Oid → Info) (hh : ∀ c, ∃ U, HoldsPf (heap c) c.2 U)
    (order0 : List El → List El) (order : Nat → List El → List El)
    (h0 : ∀ r x, x ∈ order0 r ↔ x ∈ r) (hord : ∀ n r x, x ∈ order n r ↔ x ∈ r) :
    (∃ t, TablesOf p.groups p.interfaces t ∧ All2 (PfFilter.States t) (PfFilter.ruleElements root) p.rules) ∧
    ∃ k N, ∀ fuel rounds, N ≤ fuel → N ≤ rounds → ∃ r sel,
      selection g (PfFilter.parser xml v) (PfFilter.filter fuel) (pfPage heap rounds order0 order) heaps n fuel rounds order0 order filter
        (String.ofList ('<' :: text)) = some (.ok (some r)) ∧
      (∀ x, x ∈ r ↔ Closure (heap (k, p)) sel x) ∧
      ∀ x, x ∈ sel ↔ ∃ o rule, x = .obj o ∧ p.rules[o]? = some rule ∧ Caf.Meaning c (PfFilter.Stated rule) := by
  obtain ⟨hst, N, hN⟩ := PfFilter.C89_filter_pfsense g hg xml v c ws filter n hc ht hok hn text root hx p hp hids
  refine ⟨hst, (findall root "revision").length, ?_⟩
  generalize hk : (findall root "revision").length = k
  obtain ⟨U, hU⟩ := hh (k, p)
  refine ⟨N + U.length + 1, fun fuel rounds hfu hro => ?_⟩
  obtain ⟨r, i1, i2, i3⟩ := (hN fuel (by omega)).2
  have hat : ∀ o ∈ r, o < p.rules.length ∧ ∃ i n, heap (k, p) o = .rule i ∧ i.protoName = some n := by
    intro o ho
    obtain ⟨rule, h, -⟩ := (i3 o).1 ho
    obtain ⟨i, n, h1, -, h2⟩ := hU.rule o rule h
    exact ⟨(List.getElem?_eq_some_iff.1 h).1, i, n, h1, h2⟩
  have hfin : FiniteGraph (heap (k, p)) (r.map .obj) U := by
    refine ⟨?_, ?_, fun o x => hU.pulls o x⟩
    · intro x hx
      obtain ⟨o, ho, rfl⟩ := List.mem_map.1 hx
      exact hU.all o (hat o ho).1
    · intro o x ho hx
      obtain ⟨o', ho', he⟩ := List.mem_map.1 ho
      cases he
      exact hU.fields o x (hat o ho').1 hx
  have hno : ∀ x ∈ r.map El.obj, ¬ Unresolvable (heap (k, p)) (pfKeys (k, p)) x := by
    rintro x hx ⟨o, rfl, hbad⟩
    obtain ⟨o', ho, he⟩ := List.mem_map.1 hx
    cases he
    rw [pf_keys] at hbad
    obtain ⟨-, i, n, e1, e3⟩ := hat o ho
    rcases hbad with ⟨r2, e4, e5 | ⟨s, hs, -⟩⟩ | ⟨a, b, e4, -⟩
    · rw [e1] at e4; cases e4; rw [e3] at e5; cases e5
    · cases hs
    · rw [e1] at e4; cases e4
  obtain ⟨res, j1, j2⟩ := C43_resolve_is_closure (heap (k, p)) (pfKeys (k, p)) (r.map .obj) U hfin order0 order h0 hord hno
    rounds (by omega)
  refine ⟨res, r.map .obj, ?_, j2, ?_⟩
  · unfold selection
    rw [PfFilter.detected g xml v text root hx p hp, hk]
    simp only [i1, pfPage, j1]
  · intro x
    rw [List.mem_map]
    constructor
    · rintro ⟨o, ho, rfl⟩
      obtain ⟨rule, h⟩ := (i3 o).1 ho
      exact ⟨o, rule, rfl, h⟩
    · rintro ⟨o, rule, rfl, h⟩; exact ⟨o, (i3 o).2 ⟨rule, h⟩, rfl⟩

/-! ## a sample -/

/-- Each rule has its protocol as an object of its own. -/
def pfSampleRule (id : Option String) (o : Oid) : RuleInfo := ⟨.obj o, some "tcp", .none, .none, .none, .none, id, none, []⟩

/-- The rules of the parse result and, behind them, their protocols. -/
def pfSampleHeap (c : Nat × Parsed T) (o : Oid) : Info :=
  match c.2.rules[o]? with
  | some r => .rule (pfSampleRule r.id (c.2.rules.length + o))
  | none => .plain

theorem pf_sample_holds (c : Nat × Parsed T) : ∃ U, HoldsPf (pfSampleHeap c) c.2 U := by
  refine ⟨[.none] ++ (List.range (c.2.rules.length + c.2.rules.length)).map .obj ++ (c.2.rules.filterMap (·.id)).map .str, ?_, ?_, ?_, ?_⟩
  · intro o r h
    exact ⟨pfSampleRule r.id (c.2.rules.length + o), "tcp", by simp only [pfSampleHeap, h], rfl, rfl⟩
  · intro o h
    simp only [List.mem_append, List.mem_map, List.mem_range]
    exact Or.inl (Or.inr ⟨o, by omega, rfl⟩)
  · intro o x ho hx
    have e : pfSampleHeap c o = .rule (pfSampleRule (c.2.rules[o].id) (c.2.rules.length + o)) := by
      simp only [pfSampleHeap, List.getElem?_eq_getElem ho]
    simp only [List.mem_append, List.mem_map, List.mem_range]
    cases hx with
    | protocol h => rw [e] at h; cases h; exact Or.inl (Or.inr ⟨_, by omega, rfl⟩)
    | srcHost h | dstHost h | srcPort h | dstPort h | noId h => rw [e] at h; cases h; simp [pfSampleRule]
    | id h h' =>
      rw [e] at h; cases h
      exact Or.inr ⟨_, List.mem_filterMap.2 ⟨_, List.getElem_mem ho, h'⟩, rfl⟩
    | icmp h _ h' => rw [e] at h; cases h; cases h'
    | timeRange h h' => rw [e] at h; cases h; cases h'
    | natSrc h | natDst h | natIface h | natService h => rw [e] at h; cases h
  · intro o x _ hx
    have e : (∃ r, pfSampleHeap c o = .rule r) ∨ pfSampleHeap c o = .plain := by
      simp only [pfSampleHeap]
      split
      · exact Or.inl ⟨_, rfl⟩
      · exact Or.inr rfl
    rcases e with ⟨r, e⟩ | e <;> cases hx <;> simp_all

/-- The hypotheses are met by the sample filter and the sample configuration. -/
theorem C90_sample_pfsense : ∃ p, Pf.parse sampleEnv sampleConfig = .ok p ∧ ∃ k N, ∀ fuel rounds, N ≤ fuel → N ≤ rounds → ∃ r sel,
    selection tatsuGuard (PfFilter.parser (fun _ => some sampleConfig) sampleEnv) (PfFilter.filter fuel)
      (pfPage pfSampleHeap rounds id (fun _ r => r.reverse)) sampleHeaps 4 fuel rounds id (fun _ r => r.reverse) CafText.sampleText
      (String.ofList ('<' :: "pfsense/>".toList)) = some (.ok (some r)) ∧
    (∀ x, x ∈ r ↔ Closure (pfSampleHeap (k, p)) sel x) ∧
    ∀ x, x ∈ sel ↔ ∃ o rule, x = .obj o ∧ p.rules[o]? = some rule ∧ Caf.Meaning CafText.sampleChain (PfFilter.Stated rule) := by
  obtain ⟨p, hp, -⟩ := C61_sample
  refine ⟨p, hp, ?_⟩
  exact (C90_render_pfsense tatsuGuard CafText.tatsuGuard_caf (fun _ => some sampleConfig) sampleEnv CafText.sampleChain
    CafText.sampleWords CafText.sampleText 4 CafText.sampleWords_chain (CafText.writtenB_sound _ _ (by decide +kernel))
    CafText.sampleChain_ok (by decide) "pfsense/>".toList sampleConfig rfl p hp (PfFilter.sample_ids hp) sampleHeaps pfSampleHeap
    pf_sample_holds id (fun _ r => r.reverse) (by simp) (by simp)).2

end Acltk.Render
