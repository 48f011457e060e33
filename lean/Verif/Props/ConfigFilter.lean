import Verif.Model.ConfigFilter
import Verif.Props.DetectText
import Verif.Props.FwsmNat
/-!
# C88: what `ACLConfig.filter` selects of a configuration text: rules and NAT entries
-/
namespace Acltk.ConfigFilter
open Acltk Acltk.Lookup Acltk.Detect Acltk.DetectText Acltk.Caf

/-- The node of a NAT side is a host, or there is none. -/
def HostNode (x : Option NatCmd.Node') : Prop := x = none ∨ ∃ h, x = some (.host h)

/-- The NAT entry has no side left as the keyword `interface`. -/
def HostNodes (n : NatCmd.Nat') : Prop :=
  HostNode n.real.src ∧ HostNode n.real.dst ∧ HostNode n.mapped.src ∧ HostNode n.mapped.dst

/-- The item holds that NAT entry: a twice NAT command, or the NAT line of a network object. -/
inductive Holds : FwsmText.Item → NatCmd.Nat' → Prop
  | twice (n : NatCmd.Nat') : Holds (.nat n) n
  | object (w : String) (h : List Host) (n : NatCmd.Nat') (d : Option (List Char)) : Holds (.netObj w h (some n) d) n

/-- The host a side names, if it names one. -/
def Names (x : Option NatCmd.Node') : Option (Option Host) :=
  match x with
  | some (.host h) => some (some h)
  | _ => none

/-- The entry a NAT command states: the hosts of its real and of its mapped side. -/
def StatedNat (n : NatCmd.Nat') : Entry :=
  .nat { real := some ⟨Names n.real.src, Names n.real.dst⟩, mapped := some ⟨Names n.mapped.src, Names n.mapped.dst⟩,
         description := n.description, options := n.options }

theorem subst_host (l : String) (x : NatCmd.Node') : HostNode (some (NatCmd.subst l x)) := by
  cases x with
  | host h => exact Or.inr ⟨h, rfl⟩
  | interface => exact Or.inr ⟨_, rfl⟩

theorem substMap_host {α : Type} (l : String) (f : α → NatCmd.Node') (x : Option α) :
    HostNode (x.map (fun d => NatCmd.subst l (f d))) := by
  cases x with
  | none => exact Or.inl rfl
  | some d => exact subst_host _ _

theorem twice_host {c : NatCmd.Cmd} {n : NatCmd.Nat'} (h : NatCmd.twiceNat c = .ok (some n)) : HostNodes n := by
  unfold NatCmd.twiceNat at h
  split at h
  · cases h
  · simp only [bind, Except.bind] at h
    split at h
    · cases h
    · cases h
      exact ⟨subst_host _ _, substMap_host _ _ _, subst_host _ _, substMap_host _ _ _⟩

theorem object_host {b : NatCmd.Block} {n : NatCmd.Nat'} (h : (NatCmd.objectType b).2 = some n) : HostNodes n := by
  unfold NatCmd.objectType at h
  cases hb : b.nat with
  | none => rw [hb] at h; cases h
  | some a =>
    rw [hb] at h
    simp only [Option.map_some, Option.some.injEq] at h
    subst h
    exact ⟨Or.inr ⟨_, rfl⟩, Or.inr ⟨_, rfl⟩, subst_host _ _, Or.inr ⟨_, rfl⟩⟩

/-- In a NAT entry of a configuration text every side that is written is a host. -/
theorem host_nodes {s s' : FwsmText.St} {t : List Char} {is : List FwsmText.Item} (h : FwsmText.File s t is s') :
    ∀ i ∈ is, ∀ n, Holds i n → HostNodes n := by
  induction h with
  | nil => simp
  | cmd s s' s'' t u is js hc _ ih =>
    intro i hi n hn
    rcases List.mem_append.1 hi with hi | hi
    · cases hc with
      | netObjNat =>
        simp only [List.mem_singleton] at hi
        subst hi
        generalize hx : (NatCmd.objectType _).2 = x at hn
        cases hn
        exact object_host hx
      | natOfObj =>
        simp only [List.mem_singleton] at hi
        subst hi
        generalize hx : (NatCmd.objectType _).2 = x at hn
        cases hn
        exact object_host hx
      | nat _ _ _ _ _ h1 =>
        simp only [List.mem_singleton] at hi
        subst hi; cases hn; exact twice_host h1
      | natDescription _ _ _ _ _ _ _ _ _ _ _ _ h1 =>
        simp only [List.mem_singleton] at hi
        subst hi; cases hn; exact twice_host h1
      | _ => simp at hi <;> (try rcases hi with rfl | rfl) <;> (try subst hi) <;> cases hn
    · exact ih i hi n hn
  | remarks s s' t u rs js _ _ _ _ ih =>
    intro i hi n hn
    rcases List.mem_cons.1 hi with rfl | hi
    · cases hn
    · exact ih i hi n hn

theorem node_names {x : Option NatCmd.Node'} (h : HostNode x) : node x = Names x := by
  rcases h with rfl | ⟨h, rfl⟩ <;> rfl

theorem natObj_stated {n : NatCmd.Nat'} (h : HostNodes n) : Entry.nat (natObj n) = StatedNat n := by
  obtain ⟨h1, h2, h3, h4⟩ := h
  simp only [natObj, StatedNat, node_names h1, node_names h2, node_names h3, node_names h4]

theorem natEntry_holds (items : List FwsmText.Item) (o : Oid) (n : NatCmd.Nat') :
    CafFilter.natEntry items o = some n ↔ ∃ i, items[o]? = some i ∧ Holds i n := by
  unfold CafFilter.natEntry
  constructor
  · intro h
    split at h
    · cases h; exact ⟨_, by assumption, .twice n⟩
    · subst h; exact ⟨_, by assumption, .object _ _ n _⟩
    · cases h
  · rintro ⟨i, h1, h2⟩
    rw [h1]
    cases h2 <;> rfl

theorem same_holds {is js : List FwsmText.Item} (h : FwsmText.SameItems is js) (o : Nat) (n : NatCmd.Nat') :
    (∃ i, js[o]? = some i ∧ Holds i n) ↔ ∃ i, is[o]? = some i ∧ Holds i n := by
  induction h generalizing o with
  | nil => rfl
  | cons i j is js hij _ ih =>
    cases o with
    | succ o => simpa using ih o
    | zero =>
      cases hij with
      | other => rfl
      | rule r r' _ _ =>
        constructor
        · rintro ⟨i, h, h'⟩; simp at h; subst h; cases h'
        · rintro ⟨i, h, h'⟩; simp at h; subst h; cases h'

theorem number_natOf (items : List FwsmText.Item) (k o : Nat) :
    (∃ m, (m, o) ∈ (CafFilter.number k items).filterMap Config.natOf) ↔
      k ≤ o ∧ ∃ i n, items[o - k]? = some i ∧ Holds i n := by
  induction items generalizing k with
  | nil => simp [CafFilter.number]
  | cons i is ih =>
    have h1 : (∃ m, (m, o) ∈ (CafFilter.number k (i :: is)).filterMap Config.natOf) ↔
        (∃ m, Config.natOf (CafFilter.link k i) = some (m, o)) ∨
        ∃ m, (m, o) ∈ (CafFilter.number (k + 1) is).filterMap Config.natOf := by
      rw [CafFilter.number]
      simp only [List.mem_filterMap, List.mem_cons]
      constructor
      · rintro ⟨m, a, rfl | ha, hm⟩
        · exact Or.inl ⟨m, hm⟩
        · exact Or.inr ⟨m, a, ha, hm⟩
      · rintro (⟨m, hm⟩ | ⟨m, a, ha, hm⟩)
        · exact ⟨m, _, Or.inl rfl, hm⟩
        · exact ⟨m, a, Or.inr ha, hm⟩
    have h2 : (∃ m, Config.natOf (CafFilter.link k i) = some (m, o)) ↔ o = k ∧ ∃ n, Holds i n := by
      rw [CafFilter.link_natOf]
      constructor
      · rintro ⟨m, h⟩
        split at h
        · cases h; exact ⟨rfl, _, .twice _⟩
        · cases h; exact ⟨rfl, _, .object _ _ _ _⟩
        · cases h
      · rintro ⟨rfl, n, h⟩
        cases h
        · exact ⟨_, rfl⟩
        · exact ⟨_, rfl⟩
    rw [h1, h2, ih (k + 1)]
    constructor
    · rintro (⟨rfl, n, h⟩ | ⟨h, j, n, hj, hn⟩)
      · exact ⟨Nat.le_refl _, i, n, by simp, h⟩
      · refine ⟨by omega, j, n, ?_, hn⟩
        rw [show o - k = (o - (k + 1)) + 1 by omega]; simpa using hj
    · rintro ⟨h, j, n, hj, hn⟩
      by_cases ho : o = k
      · subst ho
        simp at hj
        subst hj
        exact Or.inl ⟨rfl, n, hn⟩
      · refine Or.inr ⟨by omega, j, n, ?_, hn⟩
        rw [show o - k = (o - (k + 1)) + 1 by omega] at hj; simpa using hj

theorem sections (agName : Oid → String) (items : List FwsmText.Item) (o : Oid) :
    let c := Config.build agName (fun _ => []) (CafFilter.number 0 items)
    (o ∈ c.nat1 ∨ o ∈ c.nat2 ∨ o ∈ c.nat3) ↔ ∃ i n, items[o]? = some i ∧ Holds i n := by
  intro c
  obtain ⟨-, -, -, h⟩ := Config.C38_nat_sections agName (fun _ => []) (CafFilter.number 0 items)
  have ho := h o
  have hn := number_natOf items 0 o
  simp only [Nat.zero_le, true_and, Nat.sub_zero] at hn
  rw [← hn]
  have e : (∃ m, (m, o) ∈ (CafFilter.number 0 items).filterMap Config.natOf) ↔
      o ∈ ((CafFilter.number 0 items).filterMap Config.natOf).map (·.2) := by
    simp [List.mem_map]
  rw [e, ← List.count_pos_iff (a := o) (l := c.nat1), ← List.count_pos_iff (a := o) (l := c.nat2),
    ← List.count_pos_iff (a := o) (l := c.nat3), ← List.count_pos_iff, ← ho]
  simp only [c]
  omega

/-- How deep the hosts of a NAT entry nest. -/
theorem nat_depth (items : List FwsmText.Item) : ∃ D, ∀ i ∈ items, ∀ n, Holds i n → EntryDepth D (StatedNat n) := by
  have side : ∀ x : Option NatCmd.Node', ∃ D, ∀ h, Names x = some (some h) → h.depth ≤ D := by
    intro x
    cases x with
    | none => exact ⟨0, by intro h e; cases e⟩
    | some y =>
      cases y with
      | host h => exact ⟨h.depth, by intro h' e; cases e; omega⟩
      | interface => exact ⟨0, by intro h e; cases e⟩
  have one : ∀ n, ∃ D, EntryDepth D (StatedNat n) := by
    intro n
    obtain ⟨a, ha⟩ := side n.real.src
    obtain ⟨b, hb⟩ := side n.real.dst
    obtain ⟨c, hc⟩ := side n.mapped.src
    obtain ⟨d, hd⟩ := side n.mapped.dst
    refine ⟨a + b + c + d, ?_⟩
    rintro s (hs | hs) h (hh | hh) <;> simp only [Option.some.injEq] at hs <;> subst hs
    · have := ha h hh; omega
    · have := hb h hh; omega
    · have := hc h hh; omega
    · have := hd h hh; omega
  have mono : ∀ {D E n}, EntryDepth D (StatedNat n) → D ≤ E → EntryDepth E (StatedNat n) := by
    intro D E n h hDE s hs x hx
    exact Nat.le_trans (h s hs x hx) hDE
  induction items with
  | nil => exact ⟨0, by simp⟩
  | cons i is ih =>
    obtain ⟨D, h⟩ := ih
    have hi : ∃ E, ∀ n, Holds i n → EntryDepth E (StatedNat n) := by
      cases i with
      | nat n => obtain ⟨E, hE⟩ := one n; exact ⟨E, by rintro m ⟨⟩; exact hE⟩
      | netObj w l nat d =>
        cases nat with
        | none => exact ⟨0, by rintro m ⟨⟩⟩
        | some n => obtain ⟨E, hE⟩ := one n; exact ⟨E, by rintro m ⟨⟩; exact hE⟩
      | _ => exact ⟨0, by rintro m ⟨⟩⟩
    obtain ⟨E, hE⟩ := hi
    refine ⟨D + E, ?_⟩
    intro j hj n hn
    rcases List.mem_cons.1 hj with rfl | hj
    · exact mono (hE n hn) (by omega)
    · exact mono (h j hj n hn) (by omega)

theorem entryDepth_mono {D E : Nat} {x : Entry} (h : EntryDepth D x) (hDE : D ≤ E) : EntryDepth E x := by
  cases x with
  | rule r => exact ⟨Nat.le_trans h.1 hDE, Nat.le_trans h.2 hDE⟩
  | nat n => intro s hs x hx; exact Nat.le_trans (h s hs x hx) hDE

/-- **C88.** `aclconfig.filter(caf)` on an FWSM configuration text and a filter text, as examples/render/static.py does it: given
enough stack it delivers, without duplicates, exactly the access rules that the filter means and the NAT entries, those of
network objects and those of NAT commands in front of and behind them, that the filter means. -/
theorem C88_config_filter_fwsm {C : Type} (g : Guard) (hg : FwsmText.NameGuard g) (hg' : CafText.NameGuard g)
    (pfsense : String → Outcome C Unit) (P : C → Caf.Expr → Py (List Oid))
    (c : Caf.Chain) (ws : List CafText.Word) (filter : List Char) (n : Nat)
    (hc : CafText.ChainWords c ws) (ht : CafText.Written ws filter) (hok : Caf.ChainOk c) (hn : CafText.chainDepth c ≤ n)
    (config : List Char) (items : List FwsmText.Item) (s : FwsmText.St)
    (hf : FwsmText.File { env := { guard := g } } config items s) :
    ∃ N, ∀ fuel, N ≤ fuel → ∃ r, select g pfsense P n fuel filter (String.ofList config) = some (.ok r) ∧ r.Nodup ∧
      ∀ k, k ∈ r ↔ (∃ rule, items[k]? = some (.rule rule) ∧ Caf.Meaning c (CafFilter.Stated rule)) ∨
        ∃ i nat, items[k]? = some i ∧ Holds i nat ∧ Caf.Meaning c (StatedNat nat) := by
  obtain ⟨e, h1, h2⟩ := CafText.C73_filter_text_selects g hg' c ws filter n hc ht hok hn
  obtain ⟨items', h3, h4⟩ := FwsmText.C72_file_read_as_written g hg _ _ s (fwsm_snoc hf) (by simp)
  obtain ⟨D, hD⟩ := CafFilter.depth_bound items
  obtain ⟨E, hE⟩ := nat_depth items
  have snoc : ∀ k i, i ≠ FwsmText.Item.nothing → ((items ++ [FwsmText.Item.nothing])[k]? = some i ↔ items[k]? = some i) :=
    fun k i h => get_snoc h
  refine ⟨e.height + 3 + (D + E) + 6, ?_⟩
  intro fuel hfuel
  obtain ⟨f, rfl⟩ : ∃ f, fuel = f + 1 := ⟨fuel - 1, by omega⟩
  generalize hcfg : Config.build (CafFilter.agName items') (fun _ => []) (CafFilter.number 0 items') = cfg
  have hrules : ∀ o, o ∈ cfg.rules ↔ ∃ r, items[o]? = some (.rule r) := by
    intro o
    rw [← hcfg, Config.C35_rules_in_file_order, CafFilter.number_rules]
    have := CafFilter.same_get h3 o
    simp only [Nat.zero_le, true_and, Nat.sub_zero]
    constructor
    · rintro ⟨r, h⟩
      obtain ⟨r', h', -⟩ := this.2 r h
      exact ⟨r', (snoc _ _ (by simp)).1 h'⟩
    · rintro ⟨r, h⟩
      obtain ⟨r', h', -⟩ := this.1 r ((snoc _ _ (by simp)).2 h)
      exact ⟨r', h'⟩
  have hholds : ∀ (o : Oid) (nat : NatCmd.Nat'), (∃ i, items'[o]? = some i ∧ Holds i nat) ↔ ∃ i, items[o]? = some i ∧ Holds i nat := by
    intro o nat
    rw [same_holds h3 o nat]
    constructor
    · rintro ⟨i, h, h'⟩
      exact ⟨i, (snoc _ _ (by rintro rfl; cases h')).1 h, h'⟩
    · rintro ⟨i, h, h'⟩
      exact ⟨i, (snoc _ _ (by rintro rfl; cases h')).2 h, h'⟩
  have hnats : ∀ o, o ∈ cfg.nat1 ++ cfg.nat2 ++ cfg.nat3 ↔ ∃ i nat, items[o]? = some i ∧ Holds i nat := by
    intro o
    have := sections (CafFilter.agName items') items' o
    simp only [hcfg] at this
    rw [List.mem_append, List.mem_append, or_assoc, this]
    constructor
    · rintro ⟨i, nat, h⟩
      obtain ⟨j, hj⟩ := (hholds o nat).1 ⟨i, h⟩
      exact ⟨j, nat, hj⟩
    · rintro ⟨i, nat, h⟩
      obtain ⟨j, hj⟩ := (hholds o nat).2 ⟨i, h⟩
      exact ⟨j, nat, hj⟩
  have hheapN : ∀ (o : Oid) i nat, items[o]? = some i → Holds i nat → heap items' o = StatedNat nat := by
    intro o i nat h h'
    unfold heap
    rw [(natEntry_holds items' o nat).2 ((hholds o nat).2 ⟨i, h, h'⟩)]
    exact natObj_stated (host_nodes hf i (List.mem_of_getElem? h) nat h')
  have hheapR : ∀ (o : Oid) r, items[o]? = some (.rule r) → heap items' o = CafFilter.Stated r := by
    intro o r h
    obtain ⟨r', h', he⟩ := (CafFilter.same_get h3 o).1 r ((snoc _ _ (by simp)).2 h)
    unfold heap CafFilter.natEntry CafFilter.heap
    rw [h']
    simp only [he]
    rfl
  obtain ⟨r, i1, i2, i3⟩ := h2 (heap items') cfg.rules (D + E) f
    (by
      intro o ho
      obtain ⟨r, hr⟩ := (hrules o).1 ho
      rw [hheapR o r hr]
      exact CafFilter.idWord_sane (CafFilter.file_ids hf r (List.mem_of_getElem? hr)))
    (by
      intro o ho
      obtain ⟨r, hr⟩ := (hrules o).1 ho
      rw [hheapR o r hr]
      exact entryDepth_mono (hD r (List.mem_of_getElem? hr)) (by omega))
    (by omega)
  obtain ⟨r', j1, j2, j3⟩ := h2 (heap items') (cfg.nat1 ++ cfg.nat2 ++ cfg.nat3) (D + E) f
    (by
      intro o ho
      obtain ⟨i, nat, hr, hh⟩ := (hnats o).1 ho
      rw [hheapN o i nat hr hh]
      exact ⟨rfl, rfl⟩)
    (by
      intro o ho
      obtain ⟨i, nat, hr, hh⟩ := (hnats o).1 ho
      rw [hheapN o i nat hr hh]
      exact entryDepth_mono (hE i (List.mem_of_getElem? hr) nat hh) (by omega))
    (by omega)
  refine ⟨setUnion (setUnion [] r) r', ?_, nodup_setUnion (nodup_setUnion (by simp)), ?_⟩
  · unfold select
    rw [fwsm_accepts h4]
    simp only
    rw [h1]
    simp only [ofFwsm, hcfg, Caf.configFilter, i1, j1]
  · intro k
    rw [mem_setUnion, mem_setUnion, i3, j3, hrules, hnats]
    simp only [List.not_mem_nil, false_or]
    constructor
    · rintro (⟨⟨rule, h⟩, hm⟩ | ⟨⟨i, nat, h, hh⟩, hm⟩)
      · rw [hheapR k rule h] at hm; exact Or.inl ⟨rule, h, hm⟩
      · rw [hheapN k i nat h hh] at hm; exact Or.inr ⟨i, nat, h, hh, hm⟩
    · rintro (⟨rule, h, hm⟩ | ⟨i, nat, h, hh, hm⟩)
      · exact Or.inl ⟨⟨rule, h⟩, by rw [hheapR k rule h]; exact hm⟩
      · exact Or.inr ⟨⟨i, nat, h, hh⟩, by rw [hheapN k i nat h hh]; exact hm⟩

/-! ## IOS -/

/-- No element of an IOS parse result is a NAT entry. -/
def NoNat (items : List IosText.Item) : Prop := ∀ b n, Holds b n → IosText.Item.base b ∉ items

theorem file_noNat {s s' : FwsmText.St} {t : List Char} {is : List IosText.Item} (h : IosText.File s t is s') : NoNat is := by
  induction h with
  | nil => intro b n _ hr; simp at hr
  | cmd s s' s'' t u is js hc _ ih =>
    intro b n hb hr
    rcases List.mem_append.1 hr with hr | hr
    · cases hc <;> cases hb <;> simp at hr
    · exact ih b n hb hr

theorem same_noNat {is js : List IosText.Item} (h : IosText.SameItems is js) (hn : NoNat is) : NoNat js := by
  induction h with
  | nil => exact hn
  | cons i j is js hij _ ih =>
    intro b n hb hr
    rcases List.mem_cons.1 hr with hr | hr
    · subst hr
      cases hij
      exact hn b n hb (by simp)
    · exact ih (fun b n hb hx => hn b n hb (by simp [hx])) b n hb hr

theorem number_noNat (items : List IosText.Item) (hn : NoNat items) : ∀ (k r : Nat) (d : Dict Ifc.Intf Oid),
    (IosConfig.number k r d items).filterMap Config.natOf = [] := by
  induction items with
  | nil => intro k r d; rfl
  | cons i is ih =>
    intro k r d
    have ih := ih (fun b n hb hx => hn b n hb (by simp [hx]))
    rw [IosConfig.number, List.filterMap_cons, ih]
    have : Config.natOf (IosConfig.link k r d i) = none := by
      cases i with
      | base b =>
        rw [show IosConfig.link k r d (.base b) = CafFilter.link k b from rfl, CafFilter.link_natOf]
        split
        · exact absurd List.mem_cons_self (hn _ _ (.twice _))
        · exact absurd List.mem_cons_self (hn _ _ (.object _ _ _ _))
        · rfl
      | _ => rfl
    rw [this]

theorem ios_noNat (items : List IosText.Item) (hn : NoNat items) :
    (IosConfig.build items).base.nat1 = [] ∧ (IosConfig.build items).base.nat2 = [] ∧ (IosConfig.build items).base.nat3 = [] := by
  obtain ⟨h1, h2, h3, -⟩ := Config.C38_nat_sections (IosConfig.agName items) (IosConfig.ifAg items) (IosConfig.number 0 0 [] items)
  have h := number_noNat items hn 0 0 []
  have e : ∀ m, Config.natSection m (IosConfig.number 0 0 [] items) = [] := by
    intro m; unfold Config.natSection; rw [h]; rfl
  rw [e] at h1 h2 h3
  exact ⟨h1, h2, h3⟩

/-- **C88** for an IOS configuration text with a version line or a rule: exactly the positions, among the rules of the
configuration, of those that the filter means; there are no NAT entries. -/
theorem C88_config_filter_ios {C : Type} (g : Guard) (hg : FwsmText.NameGuard g) (hg' : CafText.NameGuard g)
    (pfsense : String → Outcome C Unit) (P : C → Caf.Expr → Py (List Oid))
    (c : Caf.Chain) (ws : List CafText.Word) (filter : List Char) (n : Nat)
    (hc : CafText.ChainWords c ws) (ht : CafText.Written ws filter) (hok : Caf.ChainOk c) (hn : CafText.chainDepth c ≤ n)
    (config : List Char) (items : List IosText.Item) (s : FwsmText.St)
    (hf : IosText.File { env := { guard := g } } config items s) (htell : ∃ i ∈ items, Telling i) (e : List Char)
    (hend : IosText.Ends e) :
    ∃ N, ∀ fuel, N ≤ fuel → ∃ r, select g pfsense P n fuel filter (String.ofList (config ++ e)) = some (.ok r) ∧ r.Nodup ∧
      ∀ k, k ∈ r ↔ ∃ rule, (IosText.rulesOf items)[k]? = some rule ∧ Caf.Meaning c (IosConfig.Stated rule) := by
  obtain ⟨e', h1, h2⟩ := CafText.C73_filter_text_selects g hg' c ws filter n hc ht hok hn
  have hne : ∀ x, items ++ x ≠ [] := by
    obtain ⟨i, hi, -⟩ := htell
    intro x e
    rw [List.append_eq_nil_iff] at e
    rw [e.1] at hi
    cases hi
  obtain ⟨t', u, x, hx, hf', hu, heq⟩ := ios_snoc hf hend
  obtain ⟨items', v, h3, h4⟩ := IosText.C80_file_read_as_written g hg t' (items ++ x) s hf' (hne x) u hu
  have hr : FwsmText.Refused g (config ++ e ++ ['\n']) := by
    have := IosText.refused_file (g := g) hf htell (e ++ ['\n']) [] (Or.inl rfl)
    simpa using this
  obtain ⟨N, hN⟩ := DetectText.C87_filter_detected_ios g hg hg' pfsense (fun _ => ([], fun _ => .rule { src := ⟨.any, none⟩, dst := ⟨.any, none⟩ }))
    c ws filter n hc ht hok hn config items s hf htell e hend
  refine ⟨N + e'.height + 10, fun fuel hfuel => ?_⟩
  obtain ⟨f, rfl⟩ : ∃ f, fuel = f + 1 := ⟨fuel - 1, by omega⟩
  obtain ⟨r, i1, i2, i3⟩ := hN f (by omega)
  have hd := ios_accepts (C := C) (pf := pfsense) hr (by rw [heq]; exact h4)
  obtain ⟨n1, n2, n3⟩ := ios_noNat items' (same_noNat h3 (file_noNat hf'))
  obtain ⟨r', j1, -, j3⟩ := h2 (IosConfig.heap items') [] 0 f (by simp) (by simp) (by omega)
  have hrun : Caf.run f (IosConfig.heap items') (IosConfig.build items').base.rules e' = .ok r := by
    unfold DetectText.main at i1
    rw [h1, hd] at i1
    simp only [Option.some.injEq] at i1
    exact i1
  refine ⟨setUnion (setUnion [] r) r', ?_, nodup_setUnion (nodup_setUnion (by simp)), fun k => ?_⟩
  · unfold select
    rw [hd]
    simp only
    rw [h1]
    simp only [ofIos, Caf.configFilter, n1, n2, n3, List.append_nil, hrun, j1]
  · rw [mem_setUnion, mem_setUnion, j3, ← i3]
    simp

/-! ## samples -/

/-- The hypotheses are met by the sample filter and a configuration with network objects and NAT commands. -/
theorem C88_sample {C : Type} (pfsense : String → Outcome C Unit) (P : C → Caf.Expr → Py (List Oid)) : ∃ N, ∀ fuel, N ≤ fuel →
    (∃ r, select tatsuGuard pfsense P 4 fuel CafText.sampleText (String.ofList CafFilter.natText) = some (.ok r) ∧ r.Nodup ∧
      ∀ k, k ∈ r ↔ (∃ rule, CafFilter.natItems[k]? = some (.rule rule) ∧ Caf.Meaning CafText.sampleChain (CafFilter.Stated rule)) ∨
        ∃ i nat, CafFilter.natItems[k]? = some i ∧ Holds i nat ∧ Caf.Meaning CafText.sampleChain (StatedNat nat)) ∧
    ∃ r, select tatsuGuard pfsense P 4 fuel CafText.sampleText (String.ofList (IosText.sampleText ++ IosText.sampleEnd)) =
        some (.ok r) ∧ r.Nodup ∧ ∀ k, k ∈ r ↔ ∃ rule, (IosText.rulesOf IosText.sampleItems)[k]? = some rule ∧
        Caf.Meaning CafText.sampleChain (IosConfig.Stated rule) := by
  obtain ⟨s, hs⟩ := CafFilter.nat_file
  obtain ⟨s', hs'⟩ := IosText.sample_file
  obtain ⟨N, hN⟩ := C88_config_filter_fwsm tatsuGuard FwsmText.tatsuGuard_name CafText.tatsuGuard_caf pfsense P CafText.sampleChain
    CafText.sampleWords CafText.sampleText 4 CafText.sampleWords_chain (CafText.writtenB_sound _ _ (by decide +kernel))
    CafText.sampleChain_ok (by decide) _ _ s hs
  obtain ⟨M, hM⟩ := C88_config_filter_ios tatsuGuard FwsmText.tatsuGuard_name CafText.tatsuGuard_caf pfsense P CafText.sampleChain
    CafText.sampleWords CafText.sampleText 4 CafText.sampleWords_chain (CafText.writtenB_sound _ _ (by decide +kernel))
    CafText.sampleChain_ok (by decide) _ _ s' hs' ⟨_, List.mem_cons_self, Or.inl ⟨_, rfl⟩⟩ IosText.sampleEnd
    (.word "line" " con 0\n access-class 10 in\nend\n".toList (by decide) ⟨_, Or.inl rfl⟩)
  exact ⟨N + M, fun fuel hf => ⟨hN fuel (by omega), hM fuel (by omega)⟩⟩

/-- The filter `ip src 192.0.2.5` means the NAT entry of the network object, by its mapped side, and the twice NAT command for any
source, but not the one for the object alone. -/
theorem C88_meant : (∀ n ∈ [CafFilter.natAuto, CafFilter.natLate],
      Caf.Meaning (.one (.mk none (.ip .src [.host ⟨.v4, 0xc0000205⟩] .nil))) (StatedNat n)) ∧
    ¬ Caf.Meaning (.one (.mk none (.ip .src [.host ⟨.v4, 0xc0000205⟩] .nil))) (StatedNat CafFilter.natEarly) := by
  have hit : ∀ b : Host, meet 5 (.host ⟨.v4, 0xc0000205⟩) b = .ok true → DirCond [.host ⟨.v4, 0xc0000205⟩] b :=
    fun b h => Or.inr ⟨_, by simp, 5, h⟩
  constructor
  · intro n hn
    simp only [List.mem_cons, List.not_mem_nil, or_false] at hn
    simp only [Caf.Meaning, Caf.chainSel, Caf.setSel, Caf.parenSel, Caf.addrs, StatedNat, Selects]
    rcases hn with rfl | rfl
    · refine Or.inr ⟨_, rfl, Or.inl ⟨_, rfl⟩, ?_, ?_⟩
      · intro h e; cases e; exact hit _ (by rfl)
      · intro h e; exact Or.inl rfl
    · refine Or.inl ⟨_, rfl, Or.inl ⟨_, rfl⟩, ?_, ?_⟩
      · intro h e; cases e; exact hit _ (by rfl)
      · intro h e; exact Or.inl rfl
  · have no : ¬ DirCond [.host ⟨.v4, 0xc0000205⟩] CafFilter.natHost := by
      rintro (h | ⟨a, ha, f, h⟩)
      · cases h
      · simp at ha
        subst ha
        rcases f with _ | _ | _ | f <;> simp [meet, CafFilter.natHost, loopAny] at h
    simp only [Caf.Meaning, Caf.chainSel, Caf.setSel, Caf.parenSel, Caf.addrs, StatedNat, Selects]
    rintro (⟨s, e, -, h, -⟩ | ⟨s, e, -, h, -⟩) <;> cases e <;> exact no (h _ rfl)

end Acltk.ConfigFilter
