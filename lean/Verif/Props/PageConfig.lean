import Verif.Props.PageSamples
import Verif.Props.Config
/-!
# C101 and C102 for the configurations that `ACLConfig.__init__` builds
-/
namespace Acltk.Page
open Acltk Acltk.Resolve Acltk.Config

theorem dSet_nodup {β : Type} {d : Dict String β} {k : String} {v : β} (h : (dKeys d).Nodup) : (dKeys (dSet d k v)).Nodup := by
  rw [dKeys_dSet]
  split
  · exact h
  · rename_i hk
    rw [List.nodup_append]
    refine ⟨h, by simp, ?_⟩
    rintro a ha b hb rfl
    exact hk (List.mem_singleton.1 hb ▸ ha)

theorem table_nodup (agName h ast0) (l : List Config.Item) (k : Kind) : (dKeys (tableOf k (run agName h ast0 l))).Nodup := by
  induction l using snocInd with
  | nil => cases k <;> exact List.nodup_nil
  | snoc l i ih =>
    rw [run_snoc]
    by_cases hk : k = .netObj
    · subst hk
      show (dKeys (Config.step agName (run agName h ast0 l) i).network).Nodup
      rw [network_step]
      split
      · split
        · exact ih
        · exact dSet_nodup ih
      · exact ih
    · rw [table_step agName _ i k hk]
      split
      · exact dSet_nodup ih
      · exact ih

theorem run_names (agName h ast0) (l : List Config.Item) (o : Oid) : o ∈ (run agName h ast0 l).names ↔ .name o ∈ l := by
  induction l using snocInd with
  | nil => simp [run]
  | snoc l i ih =>
    rw [run_snoc]
    have : (Config.step agName (run agName h ast0 l) i).names = (run agName h ast0 l).names ++ (match i with | .name o => [o] | _ => []) := by
      cases i <;> simp only [Config.step, List.append_nil] <;> (repeat' split) <;> rfl
    rw [this, List.mem_append, ih, List.mem_append]
    cases i <;> simp

theorem table_of_sect (c : Cfg) (k : Kind) : (tablesOf c).table (sectOf k) = tableOf k c := by cases k <;> rfl

theorem sectOf_surj {s : Sect} (h1 : s ≠ .interface) (h2 : s ≠ .names) : ∃ k, sectOf k = s := by
  cases s with
  | interface => exact absurd rfl h1
  | names => exact absurd rfl h2
  | netObject => exact ⟨.netObj, rfl⟩
  | svcObject => exact ⟨.svcObj, rfl⟩
  | time => exact ⟨.timeRange, rfl⟩
  | group c =>
    cases c with
    | network => exact ⟨.netGroup, rfl⟩
    | service => exact ⟨.svcGroup, rfl⟩
    | port => exact ⟨.portGroup, rfl⟩
    | icmp => exact ⟨.icmpGroup, rfl⟩
    | protocol => exact ⟨.protoGroup, rfl⟩

theorem sectOf_inj {k k' : Kind} (h : sectOf k = sectOf k') : k = k' := by
  cases k <;> cases k' <;> first | rfl | cases h

theorem sectOf_ne (k : Kind) : sectOf k ≠ .interface ∧ sectOf k ≠ .names := by
  cases k <;> simp [sectOf]

theorem mem_defsOf {k : Kind} {items : List Config.Item} {n : String} {o : Oid} :
    o ∈ defsOf k items n ↔ ∃ i ∈ items, definesOf k i = some (n, o) := by
  unfold defsOf
  simp only [List.mem_map, List.mem_filter, List.mem_filterMap, beq_iff_eq, Prod.exists]
  constructor
  · rintro ⟨a, b, ⟨⟨i, hi, e⟩, rfl⟩, rfl⟩; exact ⟨i, hi, e⟩
  · rintro ⟨i, hi, e⟩; exact ⟨n, o, ⟨⟨i, hi, e⟩, rfl⟩, rfl⟩

/-- The tables hold the definitions that are kept. -/
theorem table_kept (agName : Oid → String) (h : Oid → Dict String Oid) (items : List Config.Item) (k : Kind) (n : String) :
    dGet ((tablesOf (build agName h items)).table (sectOf k)) n = keptDef k items n := by
  rw [table_of_sect]
  obtain ⟨h1, h2, -⟩ := C36_definition_tables agName h items n
  unfold keptDef
  by_cases hk : k = .netObj
  · subst hk; rw [if_pos rfl]; exact h2
  · rw [if_neg hk]; exact h1 k hk

theorem keptDef_mem {k : Kind} {items : List Config.Item} {n : String} {o : Oid} (h : keptDef k items n = some o) : ∃ i ∈ items, definesOf k i = some (n, o) := by
  rw [← mem_defsOf]
  unfold keptDef at h
  split at h
  · exact List.mem_of_mem_head? h
  · exact List.mem_of_getLast? h

theorem mem_nat {agName : Oid → String} {h : Oid → Dict String Oid} {items : List Config.Item} {o : Oid} (ho : o ∈ (tablesOf (build agName h items)).nat) :
    ∃ i ∈ items, ∃ m, natOf i = some (m, o) := by
  obtain ⟨h1, h2, h3, -⟩ := C38_nat_sections agName h items
  have key : ∀ m, o ∈ natSection m items → ∃ i ∈ items, ∃ m, natOf i = some (m, o) := by
    intro m hm
    unfold natSection at hm
    obtain ⟨⟨a, b⟩, hp, rfl⟩ := List.mem_map.1 hm
    obtain ⟨i, hi, e⟩ := List.mem_filterMap.1 (List.mem_filter.1 hp).1
    exact ⟨i, hi, a, e⟩
  rcases List.mem_append.1 ho with ho | ho
  · rcases List.mem_append.1 ho with ho | ho
    · exact key 1 (h1 ▸ ho)
    · exact key 2 (h2 ▸ ho)
  · exact key 3 (h3 ▸ ho)

theorem mem_rule {agName : Oid → String} {h : Oid → Dict String Oid} {items : List Config.Item} {o : Oid} (ho : o ∈ (tablesOf (build agName h items)).rules) :
    .rule o ∈ items := by
  have : o ∈ (build agName h items).rules := ho
  rw [C35_rules_in_file_order] at this
  obtain ⟨i, hi, e⟩ := List.mem_filterMap.1 this
  cases i <;> simp [ruleOf] at e
  subst e
  exact hi

theorem table_iface_mem {agName : Oid → String} {h : Oid → Dict String Oid} {items : List Config.Item} {n : String} {o : Oid}
    (hd : dGet ((tablesOf (build agName h items)).table .interface) n = some o) : ∃ j, .iface j ∈ items ∧ o = j.oid := by
  have hd : dGet ((build agName h items).interfaces.map fun p => (p.1, p.2.oid)) n = some o := hd
  have key : ∀ d : Dict String Iface, dGet (d.map fun p => (p.1, p.2.oid)) n = (dGet d n).map (·.oid) := by
    intro d
    induction d with
    | nil => rfl
    | cons p t ih =>
      obtain ⟨a, b⟩ := p
      simp only [List.map_cons, dGet]
      split
      · rfl
      · exact ih
  rw [key, show build agName h items = run agName h items items from rfl, (run_ifaces agName h items items).2 n] at hd
  obtain ⟨j, hj, rfl⟩ := Option.map_eq_some_iff.1 hd
  have hm := List.mem_of_find?_eq_some hj
  rw [List.mem_reverse] at hm
  obtain ⟨i, hi, e⟩ := List.mem_filterMap.1 hm
  cases i <;> simp [ifaceOf] at e
  subst e
  exact ⟨_, hi, rfl⟩

/-- What the hypotheses of C101 to C103 ask for holds of every configuration that `ACLConfig.__init__` builds from a parse result whose references
are to the definitions that are kept. -/
theorem built_wellFormed (agName : Oid → String) (h : Oid → Dict String Oid) (heap : Oid → Obj) (items : List Config.Item)
    (P : Parsed heap items (tablesOf (build agName h items))) : WellFormed heap (tablesOf (build agName h items)) where
  rules o ho := P.rules o (mem_rule ho)
  nat o ho := by
    obtain ⟨i, hi, m, e⟩ := mem_nat ho
    exact P.nat i hi m o e
  nodup s := by
    by_cases h1 : s = .interface
    · subst h1
      show (dKeys ((build agName h items).interfaces.map fun p => (p.1, p.2.oid))).Nodup
      unfold dKeys
      rw [List.map_map]
      show (dKeys (build agName h items).interfaces).Nodup
      rw [show build agName h items = run agName h items items from rfl, (run_ifaces agName h items items).1]
      exact eraseDups_nodup _
    · by_cases h2 : s = .names
      · subst h2; exact List.nodup_nil
      · obtain ⟨k, rfl⟩ := sectOf_surj h1 h2
        rw [table_of_sect]
        exact table_nodup agName h items items k
  table s n o hs hd := by
    by_cases h2 : s = .names
    · subst h2; cases hd
    · obtain ⟨k, rfl⟩ := sectOf_surj hs h2
      rw [table_kept] at hd
      obtain ⟨i, hi, e⟩ := keptDef_mem hd
      exact P.defines k i hi n o e
  ifaces n o hd := by
    obtain ⟨j, hj, rfl⟩ := table_iface_mem hd
    exact ⟨_, P.ifaces _ hj⟩
  members := P.members
  noNames := rfl
  names o ho := P.names o ((run_names agName h items items o).1 ho)
  listed o s n hr hn := by
    obtain ⟨k, rfl, e⟩ := P.refs o s n hr hn
    exact ⟨(sectOf_ne k).2, by rw [table_kept]; exact e⟩
  target o t hr e := (run_names agName h items items t).2 (P.target o t hr e)
  fresh o hr := by
    obtain ⟨h1, h2⟩ := P.fresh o hr
    refine ⟨fun ho => h1 (mem_rule ho), fun ho => ?_⟩
    obtain ⟨i, hi, m, e⟩ := mem_nat ho
    exact h2 i hi m e
  addresses := P.addresses

/-- The parse result of the sample. -/
def sampleItems : List Config.Item :=
  [.name 5, .netObj "srv" 6 none, .netGroup "g" 2, .portGroup "web" 4, .iface ⟨30, "Vlan1", some "inside", []⟩, .rule 10, .rule 11, .rule 12, .nat 20 []]

theorem sample_tables (agName : Oid → String) : tablesOf (build agName (fun _ => []) sampleItems) = sampleTables := by
  have : ∀ t t' : Tables, t.names = t'.names → (∀ s, t.table s = t'.table s) → t.nat = t'.nat → t.rules = t'.rules → t = t' := by
    intro t t' h1 h2 h3 h4
    cases t
    cases t'
    simp only at h1 h2 h3 h4
    subst h1 h3 h4
    rw [funext h2]
  refine this _ _ rfl ?_ rfl rfl
  intro s
  cases s with
  | group c => cases c <;> rfl
  | _ => rfl

/-- The hypotheses of `built_wellFormed` are met. -/
theorem built_sample (agName : Oid → String) : Parsed sampleHeap sampleItems (tablesOf (build agName (fun _ => []) sampleItems)) := by
  rw [sample_tables]
  have mem : ∀ i, i ∈ sampleItems → i = .name 5 ∨ i = .netObj "srv" 6 none ∨ i = .netGroup "g" 2 ∨ i = .portGroup "web" 4 ∨
      i = .iface ⟨30, "Vlan1", some "inside", []⟩ ∨ i = .rule 10 ∨ i = .rule 11 ∨ i = .rule 12 ∨ i = .nat 20 [] := by
    intro i hi
    simpa [sampleItems] using hi
  refine ⟨?_, ?_, ?_, ?_, ?_, sample_wf.members, sample_wf.addresses, ?_, ?_, ?_⟩
  · intro k i hi n o e
    rcases mem i hi with rfl | rfl | rfl | rfl | rfl | rfl | rfl | rfl | rfl <;> cases k <;> cases e <;> rfl
  · intro o ho
    refine sample_wf.rules o ?_
    simpa [sampleItems, sampleTables] using ho
  · intro i hi m o e
    rcases mem i hi with rfl | rfl | rfl | rfl | rfl | rfl | rfl | rfl | rfl <;> first | (cases e; done) | skip
    have : o = 20 := by simp [natOf] at e; exact e.2.symm
    subst this
    exact ⟨_, _, rfl⟩
  · intro o ho
    rcases mem _ ho with h | h | h | h | h | h | h | h | h <;> cases h
    exact ⟨_, rfl⟩
  · intro j hj
    rcases mem _ hj with h | h | h | h | h | h | h | h | h <;> cases h
    rfl
  · intro o s n hr hn
    have := sample_refers hr
    simp only [List.mem_cons, List.not_mem_nil, or_false] at this
    rcases this with rfl | rfl | rfl | rfl | rfl | rfl | rfl <;> cases hn
    · exact ⟨.netGroup, rfl, by decide⟩
    · exact ⟨.portGroup, rfl, by decide⟩
    · exact ⟨.netObj, rfl, by decide⟩
  · intro o t hr e
    have := sample_refers hr
    simp only [List.mem_cons, List.not_mem_nil, or_false] at this
    rcases this with rfl | rfl | rfl | rfl | rfl | rfl | rfl <;> cases e
    decide
  · intro o hr
    have := sample_refers hr
    simp only [List.mem_cons, List.not_mem_nil, or_false] at this
    rcases this with rfl | rfl | rfl | rfl | rfl | rfl | rfl <;> refine ⟨by decide, ?_⟩ <;> intro i hi m <;>
      rcases mem i hi with rfl | rfl | rfl | rfl | rfl | rfl | rfl | rfl | rfl <;> simp [natOf]

/-- The group that is defined again behind the rule that uses it: what `ACLConfig.__init__` builds, the last definition, is the table of
`C102_violated_redefined`. -/
theorem redefined_built (agName : Oid → String) :
    tablesOf (build agName (fun _ => []) [.netGroup "g" 2, .rule 10, .netGroup "g" 3]) = redefinedTables := by
  have : ∀ t t' : Tables, t.names = t'.names → (∀ s, t.table s = t'.table s) → t.nat = t'.nat → t.rules = t'.rules → t = t' := by
    intro t t' h1 h2 h3 h4
    cases t
    cases t'
    simp only at h1 h2 h3 h4
    subst h1 h3 h4
    rw [funext h2]
  refine this _ _ rfl ?_ rfl rfl
  intro s
  cases s with
  | group c => cases c <;> rfl
  | _ => rfl

end Acltk.Page
