import Verif.Model.CafFilter
import Verif.Props.CafText
import Verif.Props.FwsmFile
import Verif.Props.Config
/-!
# C77: from two texts to the selected rules
-/
namespace Acltk.CafFilter
open Acltk Acltk.Lookup

theorem number_rules (items : List FwsmText.Item) (k : Nat) (o : Nat) :
    o ∈ (number k items).filterMap Config.ruleOf ↔ k ≤ o ∧ ∃ r, items[o - k]? = some (.rule r) := by
  induction items generalizing k with
  | nil => simp [number]
  | cons i is ih =>
    have hl : Config.ruleOf (link k i) = match i with | .rule _ => some k | _ => none := by cases i <;> rfl
    rw [number, List.filterMap_cons, hl]
    have hs : (k + 1 ≤ o ∧ ∃ r, is[o - (k + 1)]? = some (.rule r)) ↔ (k + 1 ≤ o ∧ ∃ r, (i :: is)[o - k]? = some (.rule r)) := by
      constructor
      · rintro ⟨h1, r, h2⟩
        refine ⟨h1, r, ?_⟩
        rw [show o - k = (o - (k + 1)) + 1 by omega]; simpa using h2
      · rintro ⟨h1, r, h2⟩
        refine ⟨h1, r, ?_⟩
        rw [show o - k = (o - (k + 1)) + 1 by omega] at h2; simpa using h2
    have h0 : o ∈ (number (k + 1) is).filterMap Config.ruleOf ↔ k + 1 ≤ o ∧ ∃ r, (i :: is)[o - k]? = some (.rule r) := (ih (k + 1)).trans hs
    by_cases he : o = k
    · subst he
      have h1 : ¬ o ∈ (number (o + 1) is).filterMap Config.ruleOf := by rw [h0]; omega
      cases i <;> simp_all
    · have h2 : (k + 1 ≤ o ∧ ∃ r, (i :: is)[o - k]? = some (.rule r)) ↔ (k ≤ o ∧ ∃ r, (i :: is)[o - k]? = some (.rule r)) := by
        constructor
        · rintro ⟨h1, h2⟩; exact ⟨by omega, h2⟩
        · rintro ⟨h1, h2⟩; exact ⟨by omega, h2⟩
      rw [h2] at h0
      cases i with
      | rule r => simp only [List.mem_cons]; rw [h0]; simp [he]
      | _ => exact h0

theorem same_get {is js : List FwsmText.Item} (h : FwsmText.SameItems is js) (o : Nat) :
    (∀ r, is[o]? = some (.rule r) → ∃ r', js[o]? = some (.rule r') ∧ entry r' = entry r) ∧
    (∀ r, js[o]? = some (.rule r) → ∃ r', is[o]? = some (.rule r') ∧ entry r' = entry r) := by
  induction h generalizing o with
  | nil => simp
  | cons i j is js hij _ ih =>
    cases o with
    | succ o => simpa using ih o
    | zero =>
      cases hij with
      | other => exact ⟨fun r h => ⟨r, h, rfl⟩, fun r h => ⟨r, h, rfl⟩⟩
      | rule r r' h1 h2 =>
        have he : entry r' = entry r := by
          rw [← h2]; rfl
        simp only [List.getElem?_cons_zero, Option.some.injEq, FwsmText.Item.rule.injEq]
        exact ⟨fun x hx => ⟨r', rfl, by rw [he, hx]⟩, fun x hx => ⟨r, rfl, by rw [← hx, he]⟩⟩

theorem idWord_sane {w : String} (h : AclText.IdWord w) : SaneId (some w) := by
  intro s body hs hp
  cases hs
  have : '/' ∈ w.toList := by rw [hp.1]; simp
  rcases h.2 _ this with h | h
  · exact absurd h (by decide)
  · exact absurd h (by decide)

theorem ruleWords_id {e : AclText.Env} {ws : List String} {r : AclText.PRule} (h : AclText.RuleWords e ws r) : AclText.IdWord r.id := by
  rcases h with h | h | h
  · cases h with
    | general => simp_all
    | icmp => simp_all
  · cases h with
    | mk => assumption
  · cases h with
    | url => simp_all
    | tcp => simp_all

theorem file_ids {s s' : FwsmText.St} {t : List Char} {is : List FwsmText.Item} (h : FwsmText.File s t is s') :
    ∀ r, FwsmText.Item.rule r ∈ is → AclText.IdWord r.id := by
  induction h with
  | nil => simp
  | cmd s s' s'' t u is js hc _ ih =>
    intro r hr
    rcases List.mem_append.1 hr with hr | hr
    · cases hc with
      | rule rt l rs ws r' _ hw _ =>
        simp at hr; subst hr
        exact (ruleWords_id hw : AclText.IdWord r'.id)
      | _ => simp at hr
    · exact ih r hr
  | remarks s s' t u rs js _ _ _ _ ih =>
    intro r hr
    simp at hr
    exact ih r hr

theorem depth_bound (items : List FwsmText.Item) : ∃ D, ∀ r, FwsmText.Item.rule r ∈ items → EntryDepth D (.rule (entry r)) := by
  induction items with
  | nil => exact ⟨0, by simp⟩
  | cons i is ih =>
    obtain ⟨D, h⟩ := ih
    cases i with
    | rule r =>
      refine ⟨D + r.src.host.depth + r.dst.host.depth, ?_⟩
      intro x hx
      rcases List.mem_cons.1 hx with hx | hx
      · cases hx; simp only [EntryDepth, entry]; omega
      · have := h x hx; simp only [EntryDepth] at this ⊢; omega
    | _ =>
      refine ⟨D, ?_⟩
      intro x hx
      rcases List.mem_cons.1 hx with hx | hx
      · cases hx
      · exact h x hx

/-- The rule a line of the configuration states: its id, source and destination. -/
def Stated (r : AclText.PRule) : Entry :=
  .rule { id := some r.id, extended := some r.extended, mode := some r.mode, src := ⟨r.src.host, none⟩, dst := ⟨r.dst.host, none⟩ }

/-- **C77**: from a filter text and a configuration text to the selected rules.  The configuration consists of commands that
stand for `items`, the filter of words that stand for `c`; given enough stack the program delivers, without
duplicates, exactly the positions of those access rules of the configuration that the filter means. -/
theorem C77_filter_configuration (g : Guard) (hg : FwsmText.NameGuard g) (hg' : CafText.NameGuard g)
    (c : Caf.Chain) (ws : List CafText.Word) (filter : List Char) (n : Nat)
    (hc : CafText.ChainWords c ws) (ht : CafText.Written ws filter) (hok : Caf.ChainOk c) (hn : CafText.chainDepth c ≤ n)
    (config : List Char) (items : List FwsmText.Item) (s : FwsmText.St)
    (hf : FwsmText.File { env := { guard := g } } config items s) (hne : items ≠ []) :
    ∃ N, ∀ fuel, N ≤ fuel → ∃ r, main g n fuel filter config = some (.ok r) ∧ r.Nodup ∧
      ∀ k, k ∈ r ↔ ∃ rule, items[k]? = some (.rule rule) ∧ Caf.Meaning c (Stated rule) := by
  obtain ⟨e, h1, h2⟩ := CafText.C73_filter_text_selects g hg' c ws filter n hc ht hok hn
  obtain ⟨items', h3, h4⟩ := FwsmText.C72_file_read_as_written g hg config items s hf hne
  obtain ⟨D, hD⟩ := depth_bound items
  refine ⟨e.height + 3 + D + 5, ?_⟩
  intro fuel hfuel
  have hrules : ∀ o, o ∈ (Config.build (agName items') (fun _ => []) (number 0 items')).rules ↔ ∃ r, items[o]? = some (.rule r) := by
    intro o
    rw [Config.C35_rules_in_file_order, number_rules]
    have := same_get h3 o
    simp only [Nat.zero_le, true_and, Nat.sub_zero]
    constructor
    · rintro ⟨r, h⟩
      obtain ⟨r', h', -⟩ := this.2 r h
      exact ⟨r', h'⟩
    · rintro ⟨r, h⟩
      obtain ⟨r', h', -⟩ := this.1 r h
      exact ⟨r', h'⟩
  have hheap : ∀ o r, items[o]? = some (.rule r) → heap items' o = Stated r := by
    intro o r h
    obtain ⟨r', h', he⟩ := (same_get h3 o).1 r h
    unfold heap
    rw [h']
    simp only [he]
    rfl
  obtain ⟨r, i1, i2, i3⟩ := h2 (heap items') (Config.build (agName items') (fun _ => []) (number 0 items')).rules D fuel
    (by
      intro o ho
      obtain ⟨r, hr⟩ := (hrules o).1 ho
      rw [hheap o r hr]
      exact idWord_sane (file_ids hf r (List.mem_of_getElem? hr)))
    (by
      intro o ho
      obtain ⟨r, hr⟩ := (hrules o).1 ho
      rw [hheap o r hr]
      exact hD r (List.mem_of_getElem? hr))
    hfuel
  refine ⟨r, ?_, i2, ?_⟩
  · unfold main
    rw [h1]
    simp only
    rw [h4]
    simp only
    rw [i1]
  · intro k
    rw [i3, hrules]
    constructor
    · rintro ⟨⟨rule, h⟩, hm⟩
      rw [hheap k rule h] at hm
      exact ⟨rule, h, hm⟩
    · rintro ⟨rule, h, hm⟩
      exact ⟨⟨rule, h⟩, by rw [hheap k rule h]; exact hm⟩

/-- The hypotheses are met by the sample filter and the sample configuration. -/
theorem C77_sample : ∃ N, ∀ fuel, N ≤ fuel → ∃ r, main tatsuGuard 4 fuel CafText.sampleText FwsmText.sampleText = some (.ok r) ∧ r.Nodup ∧
      ∀ k, k ∈ r ↔ ∃ rule, FwsmText.sampleItems[k]? = some (.rule rule) ∧ Caf.Meaning CafText.sampleChain (Stated rule) := by
  obtain ⟨s, hs⟩ := FwsmText.sample_file
  exact C77_filter_configuration tatsuGuard FwsmText.tatsuGuard_name CafText.tatsuGuard_caf CafText.sampleChain CafText.sampleWords
    CafText.sampleText 4 CafText.sampleWords_chain (CafText.writtenB_sound _ _ (by decide +kernel)) CafText.sampleChain_ok (by decide)
    FwsmText.sampleText FwsmText.sampleItems s hs (by simp [FwsmText.sampleItems])

end Acltk.CafFilter
