import Verif.Model.Render
import Verif.Props.ConfigFilter
import Verif.Props.IosRoutes
import Verif.Props.Resolve
/-!
# C90: completing the selection of a filter on a configuration text
-/
namespace Acltk.Render
open Acltk Acltk.Lookup Acltk.Detect Acltk.DetectText Acltk.Caf Acltk.Resolve

/-! ## the table of access groups -/

theorem agAppend_filled (agName : Oid → String) (l : List Oid) :
    ∀ d : Dict String (List Oid), (∀ n, dGet d n ≠ some []) → ∀ n, dGet (l.foldl (Config.agAppend agName) d) n ≠ some [] := by
  induction l with
  | nil => intro d h; exact h
  | cons v l ih =>
    intro d h
    refine ih _ ?_
    intro n
    unfold Config.agAppend
    rw [dGet_dSet]
    split
    · simp
    · exact h n

theorem step_filled (agName : Oid → String) (c : Config.Cfg) (i : Config.Item) (h : ∀ n, dGet c.accessGroups n ≠ some []) :
    ∀ n, dGet (Config.step agName c i).accessGroups n ≠ some [] := by
  cases i with
  | iface j => exact agAppend_filled agName _ _ h
  | accessGroup o a b => unfold Config.step; simp only; split <;> exact h
  | nat o l => unfold Config.step; simp only; split <;> exact h
  | _ => exact h

theorem build_filled (agName : Oid → String) (ifAg : Oid → Dict String Oid) (items : List Config.Item) :
    ∀ n, dGet (Config.build agName ifAg items).accessGroups n ≠ some [] := by
  have : ∀ (l : List Config.Item) (c : Config.Cfg), (∀ n, dGet c.accessGroups n ≠ some []) →
      ∀ n, dGet (l.foldl (Config.step agName) c).accessGroups n ≠ some [] := by
    intro l
    induction l with
    | nil => intro c h; exact h
    | cons i l ih => intro c h; exact ih _ (step_filled agName c i h)
  exact this items _ (fun n => by simp [dGet])

theorem key_iff (agName : Oid → String) (ifAg : Oid → Dict String Oid) (items : List Config.Item) (n : String) :
    n ∈ dKeys (Config.build agName ifAg items).accessGroups ↔ (dGet (Config.build agName ifAg items).accessGroups n).getD [] ≠ [] := by
  rw [← dGet_isSome_iff]
  have := build_filled agName ifAg items n
  cases h : dGet (Config.build agName ifAg items).accessGroups n with
  | none => simp
  | some l => rw [h] at this; simp at this ⊢; exact this

theorem fwsm_oids (items : List FwsmText.Item) : ∀ k, (∀ o ∈ ((CafFilter.number k items).filterMap Config.ifaceOf).map (·.oid), k ≤ o) ∧
    (((CafFilter.number k items).filterMap Config.ifaceOf).map (·.oid)).Nodup := by
  induction items with
  | nil => intro k; refine ⟨?_, List.nodup_nil⟩; intro o ho; cases ho
  | cons i is ih =>
    intro k
    obtain ⟨h1, h2⟩ := ih (k + 1)
    rw [CafFilter.number, List.filterMap_cons]
    cases i with
    | iface j =>
      refine ⟨?_, ?_⟩
      · intro o ho
        simp only [CafFilter.link, Config.ifaceOf, List.map_cons, List.mem_cons] at ho
        rcases ho with rfl | ho
        · exact Nat.le_refl _
        · have := h1 o ho; omega
      · simp only [CafFilter.link, Config.ifaceOf, List.map_cons, List.nodup_cons]
        exact ⟨fun hk => by have := h1 k hk; omega, h2⟩
    | _ => exact ⟨fun o ho => by have := h1 o ho; omega, h2⟩

/-- An FWSM configuration has an empty table of access groups: its commands fill the interfaces, after the table is made. -/
theorem fwsm_keys (items : List FwsmText.Item) : fwsmKeys items = [] := by
  apply List.eq_nil_iff_forall_not_mem.2
  intro n hn
  unfold fwsmKeys at hn
  rw [key_iff, Config.C39_access_groups_table _ _ _ _ (fwsm_oids items 0).2] at hn
  apply hn
  simp [dVals]

/-- The keys of the table of an IOS configuration are the lists its interfaces use. -/
theorem ios_keys (items : List IosText.Item) (n : String) : n ∈ iosKeys items ↔ ∃ u ∈ IosConfig.Uses items, u.2.2.1 = n := by
  have h := IosConfig.build_accessGroups items n
  have e : (IosConfig.build items).base.accessGroups =
      (Config.build (IosConfig.agName items) (IosConfig.ifAg items) (IosConfig.number 0 0 [] items)).accessGroups := rfl
  unfold iosKeys
  rw [e] at h ⊢
  rw [key_iff]
  generalize (dGet _ n).getD [] = l at h
  have h' := congrArg List.length h
  simp only [List.length_map] at h'
  constructor
  · intro hl
    have : (IosConfig.Uses items).filter (fun e => e.2.2.1 == n) ≠ [] := by
      intro hh; rw [hh] at h'; exact hl (List.eq_nil_of_length_eq_zero h')
    obtain ⟨u, hu⟩ := List.exists_mem_of_ne_nil _ this
    rw [List.mem_filter] at hu
    exact ⟨u, hu.1, by simpa using hu.2⟩
  · rintro ⟨u, hu, hn⟩ rfl
    have : u ∈ (IosConfig.Uses items).filter (fun e => e.2.2.1 == n) := List.mem_filter.2 ⟨hu, by simp [hn]⟩
    rw [List.eq_nil_of_length_eq_zero h'.symm] at this
    cases this

/-! ## heaps that hold the parsed objects -/

/-- Behind the identity is a rule of that list; every protocol the parsers build has a name. -/
def HoldsRule (info : Oid → Info) (o : Oid) (id : String) : Prop :=
  ∃ r p, info o = .rule r ∧ r.id = some id ∧ r.protoName = some p

/-- Behind the identity is a NAT entry with both of its sides. -/
def HoldsNat (info : Oid → Info) (o : Oid) : Prop := ∃ a b, info o = .nat (some a) (some b)

/-- The heap holds the rules and the NAT entries of that parse result, and refers to finitely many objects. -/
structure HoldsFwsm (info : Oid → Info) (items : List FwsmText.Item) (U : List El) : Prop where
  rule : ∀ o r, items[o]? = some (.rule r) → HoldsRule info o r.id
  nat : ∀ o i n, items[o]? = some i → ConfigFilter.Holds i n → HoldsNat info o
  all : ∀ o, o < items.length → .obj o ∈ U
  fields : ∀ o x, o < items.length → Field info o x → x ∈ U
  pulls : ∀ o x, .obj o ∈ U → Pulls info o x → x ∈ U

/-- The heap holds the rules of that parse result, and refers to finitely many objects. -/
structure HoldsIos (info : Oid → Info) (items : List IosText.Item) (U : List El) : Prop where
  rule : ∀ o r, (IosText.rulesOf items)[o]? = some r → HoldsRule info o r.id
  all : ∀ o, o < (IosText.rulesOf items).length → .obj o ∈ U
  fields : ∀ o x, o < (IosText.rulesOf items).length → Field info o x → x ∈ U
  pulls : ∀ o x, .obj o ∈ U → Pulls info o x → x ∈ U

/-- **C90**, FWSM: the page of examples/render/static.py for a configuration text and a filter text.  Whatever the order in which
sets are iterated, `resolve` completes the selection without raising, and the result is the closure of the selected rules and
NAT entries: what they name, and what that refers to. -/
theorem C90_render_fwsm {C : Type} (g : Guard) (hg : FwsmText.NameGuard g) (hg' : CafText.NameGuard g)
    (pfsense : String → Outcome C Unit) (P : C → Caf.Expr → Py (List Oid)) (P' : C → List Oid → Py (Option (List El)))
    (c : Caf.Chain) (ws : List CafText.Word) (filter : List Char) (n : Nat)
    (hc : CafText.ChainWords c ws) (ht : CafText.Written ws filter) (hok : Caf.ChainOk c) (hn : CafText.chainDepth c ≤ n)
    (config : List Char) (items : List FwsmText.Item) (s : FwsmText.St)
    (hf : FwsmText.File { env := { guard := g } } config items s)
    (heaps : Heaps) (hh : ∀ items', ∃ U, HoldsFwsm (heaps.fwsm items') items' U)
    (order0 : List El → List El) (order : Nat → List El → List El)
    (h0 : ∀ r x, x ∈ order0 r ↔ x ∈ r) (hord : ∀ n r x, x ∈ order n r ↔ x ∈ r) :
    ∃ items', FwsmText.SameItems (items ++ [.nothing]) items' ∧ ∃ N, ∀ fuel rounds, N ≤ fuel → N ≤ rounds → ∃ r sel,
      selection g pfsense P P' heaps n fuel rounds order0 order filter (String.ofList config) = some (.ok (some r)) ∧
      (∀ x, x ∈ r ↔ Closure (heaps.fwsm items') sel x) ∧
      ∀ x, x ∈ sel ↔ ∃ k, x = .obj k ∧
        ((∃ rule, items[k]? = some (.rule rule) ∧ Caf.Meaning c (CafFilter.Stated rule)) ∨
         ∃ i nat, items[k]? = some i ∧ ConfigFilter.Holds i nat ∧ Caf.Meaning c (ConfigFilter.StatedNat nat)) := by
  obtain ⟨items', h3, h4⟩ := FwsmText.C72_file_read_as_written g hg _ _ s (fwsm_snoc hf) (by simp)
  obtain ⟨N, hN⟩ := ConfigFilter.C88_config_filter_fwsm g hg hg' pfsense P c ws filter n hc ht hok hn config items s hf
  obtain ⟨U, hU⟩ := hh items'
  refine ⟨items', h3, N + U.length + 1, fun fuel rounds hfu hro => ?_⟩
  obtain ⟨r, i1, i2, i3⟩ := hN fuel (by omega)
  have snoc : ∀ (k : Nat) i, i ≠ FwsmText.Item.nothing → ((items ++ [FwsmText.Item.nothing])[k]? = some i ↔ items[k]? = some i) :=
    fun k i h => get_snoc h
  have hat : ∀ k ∈ r, k < items'.length ∧ ((∃ id, HoldsRule (heaps.fwsm items') k id) ∨ HoldsNat (heaps.fwsm items') k) := by
    intro k hk
    rcases (i3 k).1 hk with ⟨rule, h, -⟩ | ⟨i, nat, h, hh, -⟩
    · obtain ⟨r', h', -⟩ := (CafFilter.same_get h3 k).1 rule ((snoc _ _ (by simp)).2 h)
      exact ⟨(List.getElem?_eq_some_iff.1 h').1, Or.inl ⟨_, hU.rule k r' h'⟩⟩
    · obtain ⟨i', h', hh'⟩ := (ConfigFilter.same_holds h3 k nat).2 ⟨i, (snoc _ _ (by rintro rfl; cases hh)).2 h, hh⟩
      exact ⟨(List.getElem?_eq_some_iff.1 h').1, Or.inr (hU.nat k i' nat h' hh')⟩
  have hfin : FiniteGraph (heaps.fwsm items') (r.map .obj) U := by
    refine ⟨?_, ?_, fun o x => hU.pulls o x⟩
    · intro x hx
      obtain ⟨k, hk, rfl⟩ := List.mem_map.1 hx
      exact hU.all k (hat k hk).1
    · intro o x ho hx
      obtain ⟨k, hk, he⟩ := List.mem_map.1 ho
      cases he
      exact hU.fields o x (hat o hk).1 hx
  have hno : ∀ x ∈ r.map El.obj, ¬ Unresolvable (heaps.fwsm items') (fwsmKeys items') x := by
    rintro x hx ⟨o, rfl, hbad⟩
    obtain ⟨k, hk, he⟩ := List.mem_map.1 hx
    cases he
    rw [fwsm_keys] at hbad
    rcases (hat o hk).2 with ⟨id, r1, p, e1, e2, e3⟩ | ⟨a, b, e1⟩
    · rcases hbad with ⟨r2, e4, e5 | ⟨s, hs, -⟩⟩ | ⟨a, b, e4, -⟩
      · rw [e1] at e4; cases e4; rw [e3] at e5; cases e5
      · cases hs
      · rw [e1] at e4; cases e4
    · rcases hbad with ⟨r2, e4, -⟩ | ⟨a', b', e4, e5⟩
      · rw [e1] at e4; cases e4
      · rw [e1] at e4; cases e4; rcases e5 with e5 | e5 <;> cases e5
  obtain ⟨res, j1, j2⟩ := C43_resolve_is_closure (heaps.fwsm items') (fwsmKeys items') (r.map .obj) U hfin order0 order h0 hord hno
    rounds (by omega)
  refine ⟨res, r.map .obj, ?_, j2, ?_⟩
  · unfold selection
    rw [fwsm_accepts h4]
    simp only [i1, j1]
  · intro x
    rw [List.mem_map]
    constructor
    · rintro ⟨k, hk, rfl⟩; exact ⟨k, rfl, (i3 k).1 hk⟩
    · rintro ⟨k, rfl, h⟩; exact ⟨k, (i3 k).2 h, rfl⟩

/-- **C90**, IOS: whatever the order in which sets are iterated, `resolve` raises exactly if the filter selects a rule of a list that
an interface uses; otherwise the result is the closure of the selected rules. -/
theorem C90_render_ios_partial {C : Type} (g : Guard) (hg : FwsmText.NameGuard g) (hg' : CafText.NameGuard g)
    (pfsense : String → Outcome C Unit) (P : C → Caf.Expr → Py (List Oid)) (P' : C → List Oid → Py (Option (List El)))
    (c : Caf.Chain) (ws : List CafText.Word) (filter : List Char) (n : Nat)
    (hc : CafText.ChainWords c ws) (ht : CafText.Written ws filter) (hok : Caf.ChainOk c) (hn : CafText.chainDepth c ≤ n)
    (config : List Char) (items : List IosText.Item) (s : FwsmText.St)
    (hf : IosText.File { env := { guard := g } } config items s) (htell : ∃ i ∈ items, Telling i) (e : List Char)
    (hend : IosText.Ends e)
    (heaps : Heaps) (hh : ∀ items', ∃ U, HoldsIos (heaps.ios items') items' U)
    (order0 : List El → List El) (order : Nat → List El → List El)
    (h0 : ∀ r x, x ∈ order0 r ↔ x ∈ r) (hord : ∀ n r x, x ∈ order n r ↔ x ∈ r) :
    ∃ items' x, IosText.SameItems (items ++ x) items' ∧ IosText.rulesOf x = [] ∧ ∃ N, ∀ fuel rounds, N ≤ fuel → N ≤ rounds → ∃ res sel,
      selection g pfsense P P' heaps n fuel rounds order0 order filter (String.ofList (config ++ e)) = some res ∧
      (∀ x, x ∈ sel ↔ ∃ k rule, x = .obj k ∧ (IosText.rulesOf items)[k]? = some rule ∧ Caf.Meaning c (IosConfig.Stated rule)) ∧
      ((∃ err, res = .error err) ↔
        ∃ k rule, .obj k ∈ sel ∧ (IosText.rulesOf items)[k]? = some rule ∧ ∃ u ∈ IosConfig.Uses items, u.2.2.1 = rule.id) ∧
      (∀ v, res = .ok v → ∃ r, v = some r ∧ ∀ x, x ∈ r ↔ Closure (heaps.ios items') sel x) := by
  have hne : ∀ x, items ++ x ≠ [] := by
    obtain ⟨i, hi, -⟩ := htell
    intro x e
    rw [List.append_eq_nil_iff] at e
    rw [e.1] at hi
    cases hi
  obtain ⟨t', u, x, hx, hf', hu, heq⟩ := ios_snoc hf hend
  obtain ⟨items', v, h3, h4⟩ := IosText.C80_file_read_as_written g hg t' (items ++ x) s hf' (hne x) u hu
  have hr : FwsmText.Refused g (config ++ e ++ ['\n']) := by
    have := IosText.refused_file (g := g) hf htell (e ++ ['\n']) [] (Or.inl rfl)
    simpa using this
  have hd := ios_accepts (C := C) (pf := pfsense) hr (by rw [heq]; exact h4)
  obtain ⟨N, hN⟩ := ConfigFilter.C88_config_filter_ios g hg hg' pfsense P c ws filter n hc ht hok hn config items s hf htell e hend
  obtain ⟨U, hU⟩ := hh items'
  have hrx : IosText.rulesOf x = [] := by
    rcases hx with rfl | rfl <;> rfl
  have hux : IosConfig.Uses items' = IosConfig.Uses items := by
    rw [← IosConfig.same_uses h3]
    rcases hx with rfl | rfl
    · rw [List.append_nil]
    · unfold IosConfig.Uses
      rw [List.zipIdx_append]
      simp
  have hsr := IosText.same_rulesOf h3
  rw [IosConfig.rulesOf_append, hrx, List.append_nil] at hsr
  refine ⟨items', x, h3, hrx, N + U.length + 1, fun fuel rounds hfu hro => ?_⟩
  obtain ⟨r, i1, i2, i3⟩ := hN fuel (by omega)
  have hat : ∀ k ∈ r, ∃ rule, (IosText.rulesOf items)[k]? = some rule ∧ k < (IosText.rulesOf items').length ∧
      HoldsRule (heaps.ios items') k rule.id := by
    intro k hk
    obtain ⟨rule, h, -⟩ := (i3 k).1 hk
    obtain ⟨r', h', he⟩ := (IosConfig.same_rules_get hsr k).1 rule h
    have hid : r'.id = rule.id := by
      have := congrArg Rule.id he
      simpa [IosConfig.entry] using this
    refine ⟨rule, h, (List.getElem?_eq_some_iff.1 h').1, ?_⟩
    rw [← hid]
    exact hU.rule k r' h'
  have hfin : FiniteGraph (heaps.ios items') (r.map .obj) U := by
    refine ⟨?_, ?_, fun o x => hU.pulls o x⟩
    · intro x hx
      obtain ⟨k, hk, rfl⟩ := List.mem_map.1 hx
      obtain ⟨_, -, h, -⟩ := hat k hk
      exact hU.all k h
    · intro o x ho hx
      obtain ⟨k, hk, he⟩ := List.mem_map.1 ho
      cases he
      obtain ⟨_, -, h, -⟩ := hat o hk
      exact hU.fields o x h hx
  have hbad : (∃ x ∈ r.map El.obj, Unresolvable (heaps.ios items') (iosKeys items') x) ↔
      ∃ k rule, .obj k ∈ r.map El.obj ∧ (IosText.rulesOf items)[k]? = some rule ∧ ∃ u ∈ IosConfig.Uses items, u.2.2.1 = rule.id := by
    constructor
    · rintro ⟨x, hx, o, rfl, hb⟩
      obtain ⟨k, hk, he⟩ := List.mem_map.1 hx
      cases he
      obtain ⟨rule, h, -, r1, p, e1, e2, e3⟩ := hat o hk
      rcases hb with ⟨r2, e4, e5 | ⟨s, hs, e5⟩⟩ | ⟨a, b, e4, -⟩
      · rw [e1] at e4; cases e4; rw [e3] at e5; cases e5
      · rw [e1] at e4; cases e4
        rw [e2] at e5; cases e5
        obtain ⟨u, hu, hn⟩ := (ios_keys items' _).1 hs
        exact ⟨o, rule, hx, h, u, by rw [← hux]; exact hu, hn⟩
      · rw [e1] at e4; cases e4
    · rintro ⟨k, rule, hk, h, u, hu, hn⟩
      obtain ⟨o, ho, he⟩ := List.mem_map.1 hk
      cases he
      obtain ⟨rule', h', -, r1, p, e1, e2, e3⟩ := hat k ho
      rw [h] at h'; cases h'
      exact ⟨_, hk, k, rfl, Or.inl ⟨r1, e1, Or.inr ⟨rule.id, (ios_keys items' _).2 ⟨u, by rw [hux]; exact hu, hn⟩, e2⟩⟩⟩
  refine ⟨Resolve.resolve (heaps.ios items') (iosKeys items') rounds order0 order (r.map .obj), r.map .obj, ?_, ?_, ?_, ?_⟩
  · unfold selection
    rw [hd]
    simp only [i1]
  · intro x
    rw [List.mem_map]
    constructor
    · rintro ⟨k, hk, rfl⟩
      obtain ⟨rule, h⟩ := (i3 k).1 hk
      exact ⟨k, rule, rfl, h⟩
    · rintro ⟨k, rule, rfl, h⟩; exact ⟨k, (i3 k).2 ⟨rule, h⟩, rfl⟩
  · rw [C44_raises_iff_partial _ _ _ order0 order h0, hbad]
  · intro v hv
    by_cases hx : ∃ x ∈ r.map El.obj, Unresolvable (heaps.ios items') (iosKeys items') x
    · obtain ⟨err, he⟩ := (C44_raises_iff_partial _ _ _ order0 order h0 rounds).2 hx
      rw [he] at hv; cases hv
    · obtain ⟨res, j1, j2⟩ := C43_resolve_is_closure (heaps.ios items') (iosKeys items') (r.map .obj) U hfin order0 order h0 hord
        (fun x hm hb => hx ⟨x, hm, hb⟩) rounds (by omega)
      rw [j1] at hv
      cases hv
      exact ⟨res, rfl, j2⟩

/-! ## samples -/

/-- A rule whose source is an object of its own. -/
def sampleRule (id : String) (src : Oid) : RuleInfo :=
  { protocol := .none, protoName := some "ip", srcHost := .obj src, srcPort := .none, dstPort := .none, dstHost := .none,
    id := some id, icmp := .none, timeRanges := [] }

/-- Heaps with a network object for every rule. -/
def sampleHeaps : Heaps :=
  { fwsm := fun items o =>
      match items[o]? with
      | some (.rule r) => .rule (sampleRule r.id (items.length + o))
      | some (.nat _) | some (.netObj _ _ (some _) _) => .nat (some ⟨.none, .none, .none, .none⟩) (some ⟨.none, .none, .none, .none⟩)
      | some _ => .plain
      | none => .named "NetworkObject"
    ios := fun items o =>
      match (IosText.rulesOf items)[o]? with
      | some r => .rule (sampleRule r.id ((IosText.rulesOf items).length + o))
      | none => .named "NetworkObject" }

theorem sample_fields {info : Oid → Info} {o : Oid} {x : El} (h : Field info o x) :
    (∀ id src, info o = .rule (sampleRule id src) → x = .none ∨ x = .obj src ∨ x = .str id) ∧
    (info o = .nat (some ⟨.none, .none, .none, .none⟩) (some ⟨.none, .none, .none, .none⟩) → x = .none) := by
  constructor
  · intro id src e
    cases h with
    | protocol h | srcHost h | dstHost h | srcPort h | dstPort h | id h | noId h | icmp h | timeRange h | natSrc h | natDst h
    | natIface h | natService h => rw [e] at h; cases h <;> simp_all [sampleRule]
  · intro e
    cases h with
    | protocol h | srcHost h | dstHost h | srcPort h | dstPort h | id h | noId h | icmp h | timeRange h =>
      exact absurd (e.symm.trans h) (by simp)
    | natSrc h h1 h2 => rw [e] at h; cases h; rcases h1 with h1 | h1 <;> · cases h1; cases h2
    | natDst h h1 h2 => rw [e] at h; cases h; rcases h1 with h1 | h1 <;> cases h1 <;> cases h2
    | natIface h h1 => rw [e] at h; cases h; rcases h1 with h1 | h1 <;> cases h1 <;> rfl
    | natService h h1 => rw [e] at h; cases h; rcases h1 with h1 | h1 <;> cases h1 <;> rfl

/-- The objects of the sample heaps over `n` positions with lists `ids`. -/
def sampleUniverse (n : Nat) (ids : List String) : List El :=
  [.none, .str "NAT", .str "NetworkObject"] ++ (List.range (n + n)).map .obj ++ ids.map .str

theorem sample_ios (items : List IosText.Item) : ∃ U, HoldsIos (sampleHeaps.ios items) items U := by
  refine ⟨sampleUniverse (IosText.rulesOf items).length ((IosText.rulesOf items).map (·.id)), ?_, ?_, ?_, ?_⟩
  · intro o r h
    exact ⟨sampleRule r.id ((IosText.rulesOf items).length + o), "ip", by simp only [sampleHeaps, h], rfl, rfl⟩
  · intro o h
    simp only [sampleUniverse, List.mem_append, List.mem_map, List.mem_range]
    exact Or.inl (Or.inr ⟨o, by omega, rfl⟩)
  · intro o x ho hx
    have e : sampleHeaps.ios items o = .rule (sampleRule ((IosText.rulesOf items)[o].id) ((IosText.rulesOf items).length + o)) := by
      simp only [sampleHeaps, List.getElem?_eq_getElem ho]
    simp only [sampleUniverse, List.mem_append, List.mem_map, List.mem_range]
    rcases (sample_fields hx).1 _ _ e with rfl | rfl | rfl
    · simp
    · exact Or.inl (Or.inr ⟨_, by omega, rfl⟩)
    · exact Or.inr ⟨_, ⟨_, List.getElem_mem ho, rfl⟩, rfl⟩
  · intro o x _ hx
    have e : (∃ r, sampleHeaps.ios items o = .rule r) ∨ sampleHeaps.ios items o = .named "NetworkObject" := by
      simp only [sampleHeaps]
      split
      · exact Or.inl ⟨_, rfl⟩
      · exact Or.inr rfl
    rcases e with ⟨r, e⟩ | e <;> cases hx <;> simp_all [sampleUniverse]

theorem sample_fwsm (items : List FwsmText.Item) : ∃ U, HoldsFwsm (sampleHeaps.fwsm items) items U := by
  refine ⟨sampleUniverse items.length (items.filterMap (fun i => match i with | .rule r => some r.id | _ => none)), ?_, ?_, ?_, ?_, ?_⟩
  · intro o r h
    exact ⟨sampleRule r.id (items.length + o), "ip", by simp only [sampleHeaps, h], rfl, rfl⟩
  · intro o i n h hn
    refine ⟨⟨.none, .none, .none, .none⟩, ⟨.none, .none, .none, .none⟩, ?_⟩
    cases hn <;> simp only [sampleHeaps, h]
  · intro o h
    simp only [sampleUniverse, List.mem_append, List.mem_map, List.mem_range]
    exact Or.inl (Or.inr ⟨o, by omega, rfl⟩)
  · intro o x ho hx
    have hg := List.getElem?_eq_getElem ho
    have e : (∃ r, items[o]? = some (.rule r) ∧ sampleHeaps.fwsm items o = .rule (sampleRule r.id (items.length + o))) ∨
        sampleHeaps.fwsm items o = .nat (some ⟨.none, .none, .none, .none⟩) (some ⟨.none, .none, .none, .none⟩) ∨
        sampleHeaps.fwsm items o = .plain := by
      simp only [sampleHeaps]
      split
      · rename_i r e; exact Or.inl ⟨r, e, rfl⟩
      · exact Or.inr (Or.inl rfl)
      · exact Or.inr (Or.inl rfl)
      · exact Or.inr (Or.inr rfl)
      · rename_i e; rw [hg] at e; cases e
    simp only [sampleUniverse, List.mem_append, List.mem_map, List.mem_range]
    rcases e with ⟨r, hr, e⟩ | e | e
    · rcases (sample_fields hx).1 _ _ e with rfl | rfl | rfl
      · simp
      · exact Or.inl (Or.inr ⟨_, by omega, rfl⟩)
      · exact Or.inr ⟨_, List.mem_filterMap.2 ⟨_, List.mem_of_getElem? hr, rfl⟩, rfl⟩
    · rw [(sample_fields hx).2 e]; simp
    · cases hx <;> simp_all
  · intro o x _ hx
    have e : (∃ r, sampleHeaps.fwsm items o = .rule r) ∨ (∃ a b, sampleHeaps.fwsm items o = .nat a b) ∨
        sampleHeaps.fwsm items o = .plain ∨ sampleHeaps.fwsm items o = .named "NetworkObject" := by
      simp only [sampleHeaps]
      split
      · exact Or.inl ⟨_, rfl⟩
      · exact Or.inr (Or.inl ⟨_, _, rfl⟩)
      · exact Or.inr (Or.inl ⟨_, _, rfl⟩)
      · exact Or.inr (Or.inr (Or.inl rfl))
      · exact Or.inr (Or.inr (Or.inr rfl))
    rcases e with ⟨r, e⟩ | ⟨a, b, e⟩ | e | e <;> cases hx <;> simp_all [sampleUniverse]

/-- The filter `ip src 10.0.0.0/8`. -/
def tenChain : Caf.Chain := .one (.mk none (.ip .src [.net ⟨.v4, 0x0A000000, 8⟩] .nil))

theorem ten_chain : CafText.ChainWords tenChain [.key "ip", .key "src", .network "10.0.0.0/8".toList] := by
  refine .one _ _ (.mk none _ [] [] _ .nil .none (.ip .src _ _ [_] [] (.one _ _ ?_) .nil))
  refine .net "10.0.0.0".toList [] [] "8".toList ⟨.v4, 0x0A000000⟩ 8 _ ?_ (by simp) (by simp) (by decide) (by decide) ?_ ?_
  · have : "10.0.0.0".toList = Dotted 0x0A000000 := by decide +kernel
    rw [this]; exact .v4 _ (by decide)
  · exact makeNetmask_iff.1 (by decide +kernel)
  · have h1 : ipAddress "10.0.0.0".toList = .ok ⟨.v4, 0x0A000000⟩ := by decide +kernel
    have h2 : mkNetwork "10.0.0.0".toList "8".toList = .ok ⟨.v4, 0x0A000000, 8⟩ := by decide +kernel
    obtain ⟨net, i1, i2, i3, i4, i5⟩ := C19_network_denotes _ "8".toList _ 8 h1 (makeNetmask_iff.1 (by decide +kernel))
    rw [h2] at i1
    cases i1
    exact ⟨i2, i3, i4, i5⟩

theorem ten_ok : Caf.ChainOk tenChain := by
  simp only [tenChain, ChainOk, SetOk, ItemsOk, numParens, numIps]
  refine ⟨⟨by simp, ?_, trivial⟩, saneId_none, by simp⟩
  intro h hh; simp at hh; subst hh; constructor

theorem ten_means : Caf.Meaning tenChain (IosConfig.Stated IosText.sampleExt2) := by
  simp only [Caf.Meaning, Caf.chainSel, Caf.setSel, Caf.parenSel, Caf.addrs, IosConfig.Stated, Selects, tenChain]
  exact ⟨Or.inl (by rintro ⟨x, h, -⟩; cases h), Or.inr ⟨.net ⟨.v4, 0x0A000000, 8⟩, by simp, 5, by decide +kernel⟩, Or.inl rfl⟩

/-- The hypotheses are met by a configuration with NAT. -/
theorem C90_sample {C : Type} (pfsense : String → Outcome C Unit) (P : C → Caf.Expr → Py (List Oid))
    (P' : C → List Oid → Py (Option (List El))) :
    ∃ items', FwsmText.SameItems (CafFilter.natItems ++ [.nothing]) items' ∧ ∃ N, ∀ fuel rounds, N ≤ fuel → N ≤ rounds → ∃ r sel,
      selection tatsuGuard pfsense P P' sampleHeaps 4 fuel rounds id (fun _ r => r.reverse) "ip src 10.0.0.0/8".toList
        (String.ofList CafFilter.natText) = some (.ok (some r)) ∧
      (∀ x, x ∈ r ↔ Closure (sampleHeaps.fwsm items') sel x) ∧
      ∀ x, x ∈ sel ↔ ∃ k, x = .obj k ∧
        ((∃ rule, CafFilter.natItems[k]? = some (.rule rule) ∧ Caf.Meaning tenChain (CafFilter.Stated rule)) ∨
         ∃ i nat, CafFilter.natItems[k]? = some i ∧ ConfigFilter.Holds i nat ∧ Caf.Meaning tenChain (ConfigFilter.StatedNat nat)) := by
  obtain ⟨s, hs⟩ := CafFilter.nat_file
  exact C90_render_fwsm tatsuGuard FwsmText.tatsuGuard_name CafText.tatsuGuard_caf pfsense P P' tenChain _ _ 4 ten_chain
    (CafText.writtenB_sound _ _ (by decide +kernel)) ten_ok (by decide) _ _ s hs sampleHeaps sample_fwsm id (fun _ r => r.reverse)
    (by simp) (by simp)

/-- **C90, violated**: on the sample IOS configuration the filter `ip src 10.0.0.0/8` selects a rule of the list `in1`, which an
interface uses; the page is never made. -/
theorem C90_violated {C : Type} (pfsense : String → Outcome C Unit) (P : C → Caf.Expr → Py (List Oid))
    (P' : C → List Oid → Py (Option (List El))) : ∃ N, ∀ fuel rounds, N ≤ fuel → N ≤ rounds → ∃ err,
      selection tatsuGuard pfsense P P' sampleHeaps 4 fuel rounds id (fun _ r => r.reverse) "ip src 10.0.0.0/8".toList
        (String.ofList (IosText.sampleText ++ IosText.sampleEnd)) = some (.error err) := by
  obtain ⟨s, hs⟩ := IosText.sample_file
  obtain ⟨items', x, -, -, N, h⟩ := C90_render_ios_partial tatsuGuard FwsmText.tatsuGuard_name CafText.tatsuGuard_caf pfsense P P' tenChain _ _ 4
    ten_chain (CafText.writtenB_sound _ "ip src 10.0.0.0/8".toList (by decide +kernel)) ten_ok (by decide) _ _ s hs
    ⟨_, List.mem_cons_self, Or.inl ⟨_, rfl⟩⟩ IosText.sampleEnd
    (.word "line" " con 0\n access-class 10 in\nend\n".toList (by decide) ⟨_, Or.inl rfl⟩)
    sampleHeaps sample_ios id (fun _ r => r.reverse) (by simp) (by simp)
  refine ⟨N, fun fuel rounds h1 h2 => ?_⟩
  obtain ⟨res, sel, e1, e2, e3, -⟩ := h fuel rounds h1 h2
  obtain ⟨err, rfl⟩ := e3.2 ⟨1, IosText.sampleExt2, (e2 _).2 ⟨1, IosText.sampleExt2, rfl, rfl, ten_means⟩, rfl,
    (3, "ip-in", "in1", "in"), by decide +kernel, rfl⟩
  exact ⟨err, e1⟩

end Acltk.Render
