import Verif.Lemmas.CafAll
import Verif.Lemmas.IosHosts
import Verif.Props.PfFilter
/-!
# C93: filtering succeeds for whatever texts are accepted
-/
namespace Acltk.Accepted
open Acltk Acltk.Lookup Acltk.Detect Acltk.DetectText Acltk.Caf
open Acltk.ConfigFilter (Holds StatedNat select)

variable {T : Type}

/-- The configuration has that rule at position `k` (of the parse result, or among the rules). -/
def RuleAt : Cfg (Nat × Pf.Parsed T) → Nat → Entry → Prop
  | .fwsm items, k, x => ∃ rule, items[k]? = some (.rule rule) ∧ x = CafFilter.Stated rule
  | .ios items, k, x => ∃ rule, (IosText.rulesOf items)[k]? = some rule ∧ x = IosConfig.Stated rule
  | .pfsense c, k, x => ∃ rule, c.2.rules[k]? = some rule ∧ x = PfFilter.Stated rule

/-- The configuration has that NAT entry at position `k` of the parse result. -/
def NatAt : Cfg (Nat × Pf.Parsed T) → Nat → Entry → Prop
  | .fwsm items, k, x => ∃ i n, items[k]? = some i ∧ Holds i n ∧ x = StatedNat n
  | _, _, _ => False

theorem nameChars_sane {w : String} (h : FwsmText.NameChars w) : SaneId (some w) := by
  intro s body hs hp
  cases hs
  have : '/' ∈ w.toList := by rw [hp.1]; simp
  exact absurd (h _ this) (by decide)

/-- `A` says which entries there are; the filter `e` is run on the identities in `rules`, behind which these entries are. -/
theorem run_on {c : Chain} {e : Expr} {W : Entry → Prop}
    (hW : ∀ (heap : Oid → Entry) (rules : List Oid) (D fuel : Nat),
      (∀ o ∈ rules, BothSides (heap o)) → (∀ o ∈ rules, EntryDepth D (heap o)) → e.height + 3 + D + 5 ≤ fuel →
      ∃ r, run fuel heap rules e = .ok r ∧ r.Nodup ∧ ∀ o, o ∈ r ↔ o ∈ rules ∧ W (heap o))
    (hm : (∀ i ∈ chainIds c, SaneId i) → ∀ x, SaneEntry x → (W x ↔ Meaning c x))
    {A : Nat → Entry → Prop} {heap : Oid → Entry} {rules : List Oid} {D : Nat}
    (hr : ∀ o, o ∈ rules ↔ ∃ x, A o x) (hh : ∀ o x, A o x → heap o = x) (hb : ∀ o x, A o x → BothSides x)
    (hd : ∀ o x, A o x → EntryDepth D x) {fuel : Nat} (hf : e.height + 3 + D + 5 ≤ fuel) :
    ∃ r, run fuel heap rules e = .ok r ∧ r.Nodup ∧ (∀ k ∈ r, ∃ x, A k x) ∧
      ((∀ i ∈ chainIds c, SaneId i) → ∀ k x, A k x → SaneEntry x → (k ∈ r ↔ Meaning c x)) := by
  obtain ⟨r, h1, h2, h3⟩ := hW heap rules D fuel
    (by intro o ho; obtain ⟨x, hx⟩ := (hr o).1 ho; rw [hh o x hx]; exact hb o x hx)
    (by intro o ho; obtain ⟨x, hx⟩ := (hr o).1 ho; rw [hh o x hx]; exact hd o x hx) hf
  refine ⟨r, h1, h2, ?_, ?_⟩
  · intro k hk
    exact (hr k).1 ((h3 k).1 hk).1
  · intro hs k x hx hsx
    rw [h3, hh k x hx, hm hs x hsx]
    constructor
    · exact fun h => h.2
    · exact fun h => ⟨(hr k).2 ⟨x, hx⟩, h⟩

/-! ## the entries of the configurations -/

theorem detect_inv {C : Type} {g : Guard} {pf : String → Outcome C Unit} {t : String} {c : Cfg C} (h : detect g pf t = .config c) :
    match c with
    | .fwsm items => ∃ u, FwsmText.parseFile g (t ++ "\n").toList = .ok items u
    | .ios items => ∃ u, IosText.parseFile g (t ++ "\n").toList = .ok items u
    | .pfsense c => pf (t ++ "\n") = .config c := by
  unfold detect fromString tryParsers at h
  unfold fwsmParser at h
  cases h1 : FwsmText.parseFile g (t ++ "\n").toList with
  | ok items u =>
    rw [h1] at h
    simp only [Outcome.config.injEq] at h
    subst h
    exact ⟨u, rfl⟩
  | _ =>
    rw [h1] at h
    simp only at h
    unfold tryParsers iosParser at h
    cases h2 : IosText.parseFile g (t ++ "\n").toList with
    | ok items u =>
      rw [h2] at h
      simp only [Outcome.config.injEq] at h
      subst h
      exact ⟨u, rfl⟩
    | _ =>
      rw [h2] at h
      simp only at h
      unfold tryParsers pfsenseParser at h
      cases h3 : pf (t ++ "\n") with
      | config c' =>
        rw [h3] at h
        simp only [Outcome.config.injEq] at h
        subst h
        rfl
      | _ => rw [h3] at h; simp [tryParsers] at h

theorem fwsm_rules (items : List FwsmText.Item) (o : Oid) :
    o ∈ (Config.build (CafFilter.agName items) (fun _ => []) (CafFilter.number 0 items)).rules ↔
      ∃ x, RuleAt (T := T) (.fwsm items) o x := by
  rw [Config.C35_rules_in_file_order, CafFilter.number_rules]
  simp only [Nat.zero_le, true_and, Nat.sub_zero, RuleAt]
  constructor
  · rintro ⟨r, h⟩; exact ⟨_, r, h, rfl⟩
  · rintro ⟨_, r, h, -⟩; exact ⟨r, h⟩

theorem fwsm_nats (items : List FwsmText.Item) (o : Oid) :
    (let c := Config.build (CafFilter.agName items) (fun _ => []) (CafFilter.number 0 items)
     o ∈ c.nat1 ++ c.nat2 ++ c.nat3) ↔ ∃ x, NatAt (T := T) (.fwsm items) o x := by
  have := ConfigFilter.sections (CafFilter.agName items) items o
  simp only [List.mem_append, or_assoc, NatAt]
  simp only at this
  rw [this]
  constructor
  · rintro ⟨i, n, h, h'⟩; exact ⟨_, i, n, h, h', rfl⟩
  · rintro ⟨_, i, n, h, h', -⟩; exact ⟨i, n, h, h'⟩

theorem fwsm_hostNodes {items : List FwsmText.Item} (hi : ∀ i ∈ items, FwsmText.ItemOk false i) {i : FwsmText.Item} (h : i ∈ items)
    {n : NatCmd.Nat'} (hn : Holds i n) : ConfigFilter.HostNodes n := by
  have side : ∀ x, FwsmText.SideOk false x → ConfigFilter.HostNode x := by
    rintro x (h | ⟨h, e, -⟩)
    · exact Or.inl h
    · exact Or.inr ⟨h, e⟩
  have hk : FwsmText.NatOk false n := by
    cases hn with
    | twice => exact hi _ h
    | object w hs _ d => exact (hi _ h).2 _ rfl
  exact ⟨side _ hk.1, side _ hk.2.1, side _ hk.2.2.1, side _ hk.2.2.2⟩

theorem ios_noBase {items : List IosText.Item} (hi : ∀ i ∈ items, IosText.ItemOk i) : IosConfig.NoBase items :=
  fun _ h => hi _ h

theorem ios_noNat' {items : List IosText.Item} (hi : ∀ i ∈ items, IosText.ItemOk i) : ConfigFilter.NoNat items := by
  intro b n hb h
  have := hi _ h
  cases hb <;> exact this

theorem range_rules {α : Type} (l : List α) (f : α → Entry) (o : Nat) : o ∈ List.range l.length ↔ ∃ x, ∃ r, l[o]? = some r ∧ x = f r := by
  rw [List.mem_range]
  constructor
  · intro h; exact ⟨_, l[o], List.getElem?_eq_getElem h, rfl⟩
  · rintro ⟨_, r, h, -⟩
    rw [List.getElem?_eq_some_iff] at h
    exact h.1

/-- **C93.** Whatever filter text and whatever configuration text are accepted, of any kind: given enough stack both the program
of examples/caf-filter.py and `ACLConfig.filter` deliver a result, a set of rules (and NAT entries) of the
configuration.  The filter text consists of the words of a filter `c`; unless an id is a pattern with degenerate brackets, what is
selected is exactly what `c` means. -/
theorem C93_accepted_texts_are_filtered (g : Guard) (xml : String → Option Pf.Elem) (v : Pf.Env T) (n : Nat)
    (filter rest : List Char) (e : Expr) (hf : CafText.parse g n filter = .ok e rest)
    (config : String) (cfg : Cfg (Nat × Pf.Parsed T)) (hc : detect g (PfFilter.parser xml v) config = .config cfg) :
    ∃ c ws, CafText.ChainOf CafText.AnyBody c ws ∧ CafText.Loose ws filter ∧ ∃ N, ∀ fuel, N ≤ fuel →
      (∃ r, DetectText.main g (PfFilter.parser xml v) PfFilter.rules n fuel filter config = some (.ok r) ∧ r.Nodup ∧
        (∀ k ∈ r, ∃ x, RuleAt cfg k x) ∧
        ((∀ i ∈ chainIds c, SaneId i) → ∀ k x, RuleAt cfg k x → SaneEntry x → (k ∈ r ↔ Meaning c x))) ∧
      ∃ r, select g (PfFilter.parser xml v) (PfFilter.filter fuel) n fuel filter config = some (.ok r) ∧ r.Nodup ∧
        (∀ k ∈ r, ∃ x, RuleAt cfg k x ∨ NatAt cfg k x) ∧
        ((∀ i ∈ chainIds c, SaneId i) → ∀ k x, RuleAt cfg k x ∨ NatAt cfg k x → SaneEntry x → (k ∈ r ↔ Meaning c x)) := by
  obtain ⟨c, ws, h1, h2, h3⟩ := CafText.parse_inv hf
  obtain ⟨W, hm, hW⟩ := accepted_run h1 h3
  refine ⟨c, ws, h1, h2, ?_⟩
  -- one heap for rules and NAT entries, which stand at different places
  have join : ∀ {heap : Oid → Entry} {rules nats : List Oid} {D : Nat},
      (∀ o, o ∈ rules ↔ ∃ x, RuleAt cfg o x) → (∀ o x, RuleAt cfg o x → heap o = x) → (∀ o x, RuleAt cfg o x → EntryDepth D x) →
      (∀ o, o ∈ nats ↔ ∃ x, NatAt cfg o x) → (∀ o x, NatAt cfg o x → heap o = x) → (∀ o x, NatAt cfg o x → EntryDepth D x) →
      ∀ f, e.height + 3 + D + 5 ≤ f → ∃ r r', run f heap rules e = .ok r ∧ run f heap nats e = .ok r' ∧
        (∀ k ∈ setUnion (setUnion [] r) r', ∃ x, RuleAt cfg k x ∨ NatAt cfg k x) ∧
        ((∀ i ∈ chainIds c, SaneId i) → ∀ k x, RuleAt cfg k x ∨ NatAt cfg k x → SaneEntry x →
          (k ∈ setUnion (setUnion [] r) r' ↔ Meaning c x)) := by
    intro heap rules nats D hr hh hd hr' hh' hd' f hf
    have hb : ∀ o x, RuleAt cfg o x → BothSides x := by
      intro o x h
      cases cfg <;> (obtain ⟨r, -, rfl⟩ := h; trivial)
    have hb' : ∀ o x, NatAt cfg o x → BothSides x := by
      intro o x h
      cases cfg with
      | fwsm => obtain ⟨i, n, -, -, rfl⟩ := h; exact ⟨rfl, rfl⟩
      | ios => exact h.elim
      | pfsense => exact h.elim
    obtain ⟨r, i1, -, i3, i4⟩ := run_on (c := c) hW hm hr hh hb hd hf
    obtain ⟨r', j1, -, j3, j4⟩ := run_on (c := c) hW hm hr' hh' hb' hd' hf
    refine ⟨r, r', i1, j1, ?_, ?_⟩
    · intro k hk
      rw [mem_setUnion, mem_setUnion] at hk
      rcases hk with (hk | hk) | hk
      · cases hk
      · obtain ⟨x, hx⟩ := i3 k hk; exact ⟨x, .inl hx⟩
      · obtain ⟨x, hx⟩ := j3 k hk; exact ⟨x, .inr hx⟩
    · intro hs k x hx hsx
      have eq : ∀ y, RuleAt cfg k y ∨ NatAt cfg k y → y = x := by
        intro y hy
        have : heap k = x := hx.elim (hh k x) (hh' k x)
        rw [← this]
        exact (hy.elim (hh k y) (hh' k y)).symm
      rw [mem_setUnion, mem_setUnion]
      constructor
      · rintro ((hk | hk) | hk)
        · cases hk
        · obtain ⟨y, hy⟩ := i3 k hk
          have := eq y (.inl hy); subst this
          exact (i4 hs k y hy hsx).1 hk
        · obtain ⟨y, hy⟩ := j3 k hk
          have := eq y (.inr hy); subst this
          exact (j4 hs k y hy hsx).1 hk
      · intro hM
        rcases hx with hx | hx
        · exact .inl (.inr ((i4 hs k x hx hsx).2 hM))
        · exact .inr ((j4 hs k x hx hsx).2 hM)
  have nd : ∀ r r' : List Oid, (setUnion (setUnion [] r) r').Nodup := fun r r' => nodup_setUnion (nodup_setUnion (by simp))
  have hb : ∀ o x, RuleAt cfg o x → BothSides x := by
    intro o x h
    cases cfg <;> (obtain ⟨r, -, rfl⟩ := h; trivial)
  cases cfg with
  | fwsm items =>
    obtain ⟨u, hp⟩ := detect_inv hc
    have hi := FwsmText.parseFile_items hp
    obtain ⟨D, hD⟩ := CafFilter.depth_bound items
    obtain ⟨E, hE⟩ := ConfigFilter.nat_depth items
    refine ⟨e.height + 3 + (D + E) + 6, fun fuel hfuel => ⟨?_, ?_⟩⟩
    · obtain ⟨r, i1, i2, i3, i4⟩ := run_on (c := c) hW hm (A := RuleAt (T := T) (.fwsm items)) (heap := CafFilter.heap items) (D := D + E)
        (fun o => fwsm_rules items o) (by rintro o x ⟨r, h, rfl⟩; unfold CafFilter.heap; rw [h]; rfl) hb
        (by rintro o x ⟨r, h, rfl⟩; exact ConfigFilter.entryDepth_mono (hD r (List.mem_of_getElem? h)) (by omega)) (fuel := fuel) (by omega)
      refine ⟨r, ?_, i2, i3, i4⟩
      unfold DetectText.main
      rw [hf, hc]
      simp only [DetectText.rules, i1]
    · obtain ⟨f, rfl⟩ : ∃ f, fuel = f + 1 := ⟨fuel - 1, by omega⟩
      obtain ⟨r, r', i1, i2, i3, i4⟩ := join (heap := ConfigFilter.heap items) (D := D + E) (fun o => fwsm_rules items o)
        (by
          rintro o x ⟨r, h, rfl⟩
          unfold ConfigFilter.heap CafFilter.natEntry CafFilter.heap
          rw [h]; rfl)
        (by rintro o x ⟨r, h, rfl⟩; exact ConfigFilter.entryDepth_mono (hD r (List.mem_of_getElem? h)) (by omega))
        (fun o => fwsm_nats items o)
        (by
          rintro o x ⟨i, n, h, h', rfl⟩
          unfold ConfigFilter.heap
          rw [(ConfigFilter.natEntry_holds items o n).2 ⟨i, h, h'⟩]
          exact ConfigFilter.natObj_stated (fwsm_hostNodes hi (List.mem_of_getElem? h) h'))
        (by rintro o x ⟨i, n, h, h', rfl⟩; exact ConfigFilter.entryDepth_mono (hE i (List.mem_of_getElem? h) n h') (by omega))
        f (by omega)
      refine ⟨_, ?_, nd r r', i3, i4⟩
      unfold select
      rw [hf, hc]
      simp only [ConfigFilter.ofFwsm, Caf.configFilter, i1, i2]
  | ios items =>
    obtain ⟨u, hp⟩ := detect_inv hc
    have hi := IosText.parseFile_items hp
    obtain ⟨D, hD⟩ := IosConfig.depth_bound (IosText.rulesOf items)
    obtain ⟨n1, n2, n3⟩ := ConfigFilter.ios_noNat items (ios_noNat' hi)
    have hr : ∀ o, o ∈ (IosConfig.build items).base.rules ↔ ∃ x, RuleAt (T := T) (.ios items) o x := by
      intro o
      rw [IosConfig.build_rules items (ios_noBase hi)]
      exact range_rules _ _ _
    have hh : ∀ o x, RuleAt (T := T) (.ios items) o x → IosConfig.heap items o = x := by
      rintro o x ⟨r, h, rfl⟩; unfold IosConfig.heap; rw [h]; rfl
    have hd : ∀ o x, RuleAt (T := T) (.ios items) o x → EntryDepth D x := by
      rintro o x ⟨r, h, rfl⟩; exact hD r (List.mem_of_getElem? h)
    refine ⟨e.height + 3 + D + 6, fun fuel hfuel => ⟨?_, ?_⟩⟩
    · obtain ⟨r, i1, i2, i3, i4⟩ := run_on (c := c) hW hm hr hh hb hd (fuel := fuel) (by omega)
      refine ⟨r, ?_, i2, i3, i4⟩
      unfold DetectText.main
      rw [hf, hc]
      simp only [DetectText.rules, i1]
    · obtain ⟨f, rfl⟩ : ∃ f, fuel = f + 1 := ⟨fuel - 1, by omega⟩
      obtain ⟨r, r', i1, i2, i3, i4⟩ := join (nats := []) hr hh hd (by intro o; simp [NatAt]) (by intro o x h; exact h.elim)
        (by intro o x h; exact h.elim) f (by omega)
      refine ⟨_, ?_, nd r r', i3, i4⟩
      unfold select
      rw [hf, hc]
      simp only [ConfigFilter.ofIos, Caf.configFilter, n1, n2, n3, List.append_nil, i1, i2]
  | pfsense cc =>
    obtain ⟨m, p⟩ := cc
    obtain ⟨D, hD⟩ := PfFilter.depth_bound p.rules
    obtain ⟨n1, n2, n3⟩ := PfFilter.nat_build m p
    have hr : ∀ o, o ∈ (PfFilter.build m p).rules ↔ ∃ x, RuleAt (T := T) (.pfsense (m, p)) o x := by
      intro o
      rw [PfFilter.rules_build]
      exact range_rules _ _ _
    have hh : ∀ o x, RuleAt (T := T) (.pfsense (m, p)) o x → PfFilter.heap p o = x := by
      rintro o x ⟨r, h, rfl⟩; unfold PfFilter.heap; rw [h]; rfl
    have hd : ∀ o x, RuleAt (T := T) (.pfsense (m, p)) o x → EntryDepth D x := by
      rintro o x ⟨r, h, rfl⟩; exact hD r (List.mem_of_getElem? h)
    refine ⟨e.height + 3 + D + 6, fun fuel hfuel => ⟨?_, ?_⟩⟩
    · obtain ⟨r, i1, i2, i3, i4⟩ := run_on (c := c) hW hm hr hh hb hd (fuel := fuel) (by omega)
      refine ⟨r, ?_, i2, i3, i4⟩
      unfold DetectText.main
      rw [hf, hc]
      simp only [DetectText.rules, PfFilter.rules, i1]
    · obtain ⟨f, rfl⟩ : ∃ f, fuel = f + 1 := ⟨fuel - 1, by omega⟩
      obtain ⟨r, r', i1, i2, i3, i4⟩ := join (nats := []) hr hh hd (by intro o; simp [NatAt]) (by intro o x h; exact h.elim)
        (by intro o x h; exact h.elim) f (by omega)
      refine ⟨_, ?_, nd r r', i3, i4⟩
      unfold select
      rw [hf, hc]
      simp only [PfFilter.filter, Caf.configFilter, n1, n2, n3, List.append_nil, i1, i2]

/-- **C93**, the condition on the ids of the configuration: it always holds for FWSM and IOS texts. -/
theorem C93_ids_sane {C : Type} (g : Guard) (pf : String → Outcome C Unit) (config : String) :
    (∀ items, detect g pf config = .config (.fwsm items) →
      ∀ k x, RuleAt (T := T) (.fwsm items) k x ∨ NatAt (T := T) (.fwsm items) k x → SaneEntry x) ∧
    ∀ items, detect g pf config = .config (.ios items) → ∀ k x, RuleAt (T := T) (.ios items) k x → SaneEntry x := by
  constructor
  · intro items hc k x hx
    obtain ⟨u, hp⟩ := detect_inv hc
    rcases hx with ⟨r, h, rfl⟩ | ⟨i, n, h, h', rfl⟩
    · exact nameChars_sane (FwsmText.parseFile_items hp _ (List.mem_of_getElem? h)).1
    · trivial
  · rintro items hc k x ⟨r, h, rfl⟩
    obtain ⟨u, hp⟩ := detect_inv hc
    exact nameChars_sane (IosText.rulesOf_ok (IosText.parseFile_items hp) r (List.mem_of_getElem? h)).1

/-! ## a sample -/

/-- A filter with an id in front of a parenthesis and a pattern with degenerate brackets. -/
def sampleFilter : List Char := "id x ( id /in[b-a]/ ip src any ) union ip dst 10.0.0.0/8".toList

/-- A configuration with a line that is no command of the specification of C72. -/
def sampleConfig : List Char := "access-list a ethertype permit bpdu\naccess-list in extended permit ip any host 10.0.0.1\n".toList

/-- The hypotheses of C93 are met by texts that the theorems on written texts (C73, C72) do not cover. -/
theorem C93_sample {C : Type} (pf : String → Outcome C Unit) : (∃ e r, CafText.parse tatsuGuard 6 sampleFilter = .ok e r) ∧
    (∃ i r l, detect tatsuGuard pf (String.ofList sampleConfig) = .config (.fwsm (i :: .rule r :: l))) := by
  constructor
  · have h : (match CafText.parse tatsuGuard 6 sampleFilter with | .ok _ _ => true | _ => false) = true := by decide +kernel
    cases hp : CafText.parse tatsuGuard 6 sampleFilter with
    | ok e r => exact ⟨e, r, rfl⟩
    | fail => rw [hp] at h; cases h
    | raise x => rw [hp] at h; cases h
  · have h : (match FwsmText.parseFile tatsuGuard (sampleConfig ++ ['\n']) with
        | .ok (_ :: .rule _ :: _) _ => true | _ => false) = true := by decide +kernel
    generalize hv : FwsmText.parseFile tatsuGuard (sampleConfig ++ ['\n']) = v at h
    split at h
    · exact ⟨_, _, _, fwsm_accepts hv⟩
    · cases h

end Acltk.Accepted
