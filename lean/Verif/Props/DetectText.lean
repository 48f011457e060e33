import Verif.Model.DetectText
import Verif.Lemmas.IosRefuse
import Verif.Props.IosConfig
import Verif.Props.Detect
/-!
# C86, C87: the kind of a configuration is found from its text, and the right rules are filtered

A text of one kind is never read as another kind, as long as it says what it is: an FWSM or ASA text by its commands, an IOS
text by a version line or by a rule, a pfSense text by being XML.
-/
namespace Acltk.DetectText
open Acltk Acltk.Lookup Acltk.Detect

variable {C : Type}

/-! ## lemmas -/

theorem data_toList (t : List Char) : (String.ofList t ++ "\n").toList = t ++ ['\n'] := by
  simp

theorem not_prefix_snoc {p u : List Char} {a : Char} (hp : p.getLast? ≠ some a) (h : ¬ p <+: u) : ¬ p <+: u ++ [a] := by
  intro hq
  rw [List.prefix_concat_iff] at hq
  rcases hq with e | e
  · rw [e] at hp; simp at hp
  · exact h e

/-- A line feed at the end of an FWSM text. -/
theorem fwsm_snoc {s s' : FwsmText.St} {t : List Char} {is : List FwsmText.Item} (h : FwsmText.File s t is s') :
    FwsmText.File s (t ++ ['\n']) (is ++ [.nothing]) s' := by
  induction h with
  | nil s => exact .cmd _ _ _ ['\n'] [] [.nothing] [] (.blank _ (Or.inl rfl)) (.nil _)
  | cmd s s' s'' t u is js hc _ ih =>
    rw [List.append_assoc, List.append_assoc]
    exact .cmd _ _ _ _ _ _ _ hc ih
  | remarks s s' t u rs js hr hne hn _ ih =>
    rw [List.append_assoc]
    exact .remarks _ _ _ _ _ _ hr hne (not_prefix_snoc (by decide) hn) ih

theorem ends_snoc {e : List Char} (h : IosText.Ends e) : e = [] ∨ IosText.Ends (e ++ ['\n']) := by
  cases h with
  | eof => exact Or.inl rfl
  | word k u hk hu =>
    refine Or.inr ?_
    rw [List.append_assoc]
    refine .word k _ hk ?_
    obtain ⟨v, rfl | rfl | rfl | rfl⟩ := hu
    · exact ⟨v ++ ['\n'], Or.inl rfl⟩
    · exact ⟨v ++ ['\n'], Or.inr (Or.inl rfl)⟩
    · exact ⟨v ++ ['\n'], Or.inr (Or.inr (Or.inl rfl))⟩
    · exact ⟨v ++ ['\n'], Or.inr (Or.inr (Or.inr rfl))⟩

/-- The IOS text with a line feed at its end: the same commands, or an empty line more. -/
theorem ios_snoc {g : Guard} {t e : List Char} {is : List IosText.Item} {s : FwsmText.St}
    (h : IosText.File { env := { guard := g } } t is s) (he : IosText.Ends e) :
    ∃ t' e' x, (x = [] ∨ x = [.base .nothing]) ∧ IosText.File { env := { guard := g } } t' (is ++ x) s ∧ IosText.Ends e' ∧
      t ++ e ++ ['\n'] = t' ++ e' := by
  rcases ends_snoc he with rfl | he
  · exact ⟨t ++ ['\n'], [], _, Or.inr rfl, IosText.file_snoc h, .eof, by simp⟩
  · exact ⟨t, e ++ ['\n'], [], Or.inl rfl, by simpa using h, he, by simp⟩

theorem fwsm_accepts {g : Guard} {pf : String → Outcome C Unit} {t : List Char} {is : List FwsmText.Item} {r : List Char}
    (h : FwsmText.parseFile g (t ++ ['\n']) = .ok is r) : detect g pf (String.ofList t) = .config (.fwsm is) := by
  unfold detect fromString tryParsers fwsmParser
  rw [data_toList, h]

theorem fwsm_refuses {g : Guard} {t : String} (h : FwsmText.Refused g t.toList) : fwsmParser (C := C) g t = .exception () := by
  unfold fwsmParser
  generalize hv : FwsmText.parseFile g t.toList = v
  cases v with
  | ok is r => exact absurd hv (h is r)
  | fail => rfl
  | raise e => rfl

theorem ios_accepts {g : Guard} {pf : String → Outcome C Unit} {t : List Char} {is : List IosText.Item} {r : List Char}
    (hf : FwsmText.Refused g (t ++ ['\n'])) (h : IosText.parseFile g (t ++ ['\n']) = .ok is r) :
    detect g pf (String.ofList t) = .config (.ios is) := by
  unfold detect fromString tryParsers
  rw [fwsm_refuses (by rw [data_toList]; exact hf)]
  unfold tryParsers iosParser
  rw [data_toList, h]

theorem first_inside : ∀ w ∈ FwsmText.firstWords, w.toList = ['\n'] ∨ w.toList = ['\r', '\n'] ∨ IosText.inside w.toList = true := by
  decide +kernel

theorem outside_refused (g : Guard) {x : Char} (hx : IosText.Outside x) (ls : List (List Char))
    (hl : ∀ n ∈ ls, n = ['\n'] ∨ n = ['\r', '\n']) (t : List Char) : FwsmText.Refused g (ls.flatten ++ x :: t) := by
  have ha : FwsmText.LineStart ls.flatten := by
    rcases List.eq_nil_or_concat ls with rfl | ⟨ls', n, rfl⟩
    · exact Or.inl rfl
    · rw [List.concat_eq_append] at hl ⊢
      rcases hl n (by simp) with rfl | rfl
      · exact Or.inr ⟨ls'.flatten, by simp⟩
      · exact Or.inr ⟨ls'.flatten ++ ['\r'], by simp⟩
  have hne : ∀ c : Char, c.toNat < 127 → c ≠ '<' → x ≠ c := by
    rintro c h1 h2 rfl
    rcases hx with e | e
    · exact h2 e
    · omega
  refine FwsmText.refused_unknown (a := ls.flatten) (x := x) (u := t) rfl ha ?_ ?_
  · rintro (h | h | h | h)
    · exact hne _ (by decide) (by decide) h
    · exact hne _ (by decide) (by decide) h
    · exact hne _ (by decide) (by decide) h
    · exact hne _ (by decide) (by decide) h
  · intro w hw hp
    cases hwl : w.toList with
    | nil => rcases first_inside w hw with h | h | h <;> rw [hwl] at h <;> cases h
    | cons c l =>
      rw [hwl, List.cons_prefix_cons] at hp
      rcases first_inside w hw with h | h | h
      · rw [hwl] at h; cases h; exact hne _ (by decide) (by decide) hp.1.symm
      · rw [hwl] at h; cases h; exact hne _ (by decide) (by decide) hp.1.symm
      · rw [hwl] at h
        simp only [IosText.inside, Bool.and_eq_true, bne_iff_ne, decide_eq_true_eq] at h
        exact hne _ h.2 h.1 hp.1.symm

/-! ## C86 -/

/-- **C86.** A text of FWSM commands gives the FWSM configuration with exactly their items (the line feed appended to the text
is one empty line more); no other parser is asked. -/
theorem C86_fwsm_text (g : Guard) (hg : FwsmText.NameGuard g) (pfsense : String → Outcome C Unit) (text : List Char)
    (items : List FwsmText.Item) (s : FwsmText.St) (h : FwsmText.File { env := { guard := g } } text items s) :
    ∃ items', FwsmText.SameItems (items ++ [.nothing]) items' ∧
      detect g pfsense (String.ofList text) = .config (.fwsm items') := by
  obtain ⟨items', h1, h2⟩ := FwsmText.C72_file_read_as_written g hg _ _ s (fwsm_snoc h) (by simp)
  exact ⟨items', h1, fwsm_accepts h2⟩

/-- The item is a version line or holds a rule. -/
def Telling (i : IosText.Item) : Prop :=
  (∃ v, i = .base (.version v)) ∨ (∃ r, i = .rule r) ∨ ∃ r l, i = .rules (r :: l)

/-- **C86.** A text of IOS commands with a version line, or with at least one rule, gives the IOS configuration with exactly the
items of its commands, although the FWSM parser is tried first. -/
theorem C86_ios_text_partial (g : Guard) (hg : FwsmText.NameGuard g) (pfsense : String → Outcome C Unit) (text : List Char)
    (items : List IosText.Item) (s : FwsmText.St) (h : IosText.File { env := { guard := g } } text items s)
    (ht : ∃ i ∈ items, Telling i) (e : List Char) (he : IosText.Ends e) :
    ∃ items' x, (x = [] ∨ x = [.base .nothing]) ∧ IosText.SameItems (items ++ x) items' ∧
      detect g pfsense (String.ofList (text ++ e)) = .config (.ios items') := by
  obtain ⟨t', e', x, hx, hf, he', heq⟩ := ios_snoc h he
  obtain ⟨items', u, h1, h2⟩ := IosText.C80_file_read_as_written g hg t' (items ++ x) s hf (by
    obtain ⟨i, hi, -⟩ := ht
    intro e
    rw [List.append_eq_nil_iff] at e
    rw [e.1] at hi
    cases hi) e' he'
  refine ⟨items', x, hx, h1, ios_accepts ?_ (by rw [heq]; exact h2)⟩
  have := IosText.refused_file (g := g) h ht (e ++ ['\n']) [] (Or.inl rfl)
  simpa using this

/-- **C86.** A text whose first line that is not empty begins with `<` or with a character outside ASCII is left to the pfSense
parser: the result is its result. -/
theorem C86_other_text (g : Guard) (pfsense : String → Outcome C Unit) (ls : List (List Char))
    (hl : ∀ n ∈ ls, n = ['\n'] ∨ n = ['\r', '\n']) (x : Char) (hx : x = '<' ∨ 127 ≤ x.toNat) (t : List Char) :
    detect g pfsense (String.ofList (ls.flatten ++ x :: t)) =
      pfsenseParser pfsense (String.ofList (ls.flatten ++ x :: t) ++ "\n") := by
  have e : (ls.flatten ++ x :: t) ++ ['\n'] = ls.flatten ++ x :: (t ++ ['\n']) := by simp
  unfold detect fromString tryParsers
  rw [fwsm_refuses (by rw [data_toList, e]; exact outside_refused g hx ls hl _)]
  unfold tryParsers iosParser
  rw [data_toList, e, IosText.parseFile_outside hx ls hl]
  simp only [tryParsers]
  unfold pfsenseParser
  cases pfsense (String.ofList (ls.flatten ++ x :: t) ++ "\n") <;> rfl

/-- **C86.** A text that begins with `<` is left to the pfSense parser: the result is its result. -/
theorem C86_xml (g : Guard) (pfsense : String → Outcome C Unit) (t : List Char) :
    detect g pfsense (String.ofList ('<' :: t)) = pfsenseParser pfsense (String.ofList ('<' :: t) ++ "\n") :=
  C86_other_text g pfsense [] (by simp) '<' (Or.inl rfl) t

/-- The samples: an FWSM text and an IOS text. -/
theorem C86_samples (pfsense : String → Outcome C Unit) :
    (∃ items', FwsmText.SameItems (FwsmText.sampleItems ++ [.nothing]) items' ∧
      detect tatsuGuard pfsense (String.ofList FwsmText.sampleText) = .config (.fwsm items')) ∧
    ∃ items' x, (x = [] ∨ x = [.base .nothing]) ∧ IosText.SameItems (IosText.sampleItems ++ x) items' ∧
      detect tatsuGuard pfsense (String.ofList (IosText.sampleText ++ IosText.sampleEnd)) = .config (.ios items') := by
  obtain ⟨s, hs⟩ := FwsmText.sample_file
  obtain ⟨s', hs'⟩ := IosText.sample_file
  exact ⟨C86_fwsm_text _ FwsmText.tatsuGuard_name _ _ _ s hs, C86_ios_text_partial _ FwsmText.tatsuGuard_name _ _ _ s' hs'
    ⟨_, List.mem_cons_self, Or.inl ⟨_, rfl⟩⟩ _ (.word "line" " con 0\n access-class 10 in\nend\n".toList (by decide) ⟨_, Or.inl rfl⟩)⟩

/-- An IOS configuration without a version line and without a rule. -/
def silentText : List Char := "hostname r1\ninterface Vlan1\n ip address 10.0.0.1 255.255.255.0\nip route 10.9.0.0 255.255.0.0 10.0.0.254\n".toList

/-- **C86 is violated** for an IOS text that says nothing of the kind: it is read as an FWSM configuration and its routes are lost,
although the IOS parser reads the text and finds the route. -/
theorem C86_violated_silent_text (pfsense : String → Outcome C Unit) :
    (∃ items, detect tatsuGuard pfsense (String.ofList silentText) = .config (.fwsm items)) ∧
    ∃ items, IosText.parseFile tatsuGuard silentText = .ok items [] ∧
      IosText.routesOf items = [⟨⟨.v4, 0x0a090000, 16⟩, .addr ⟨.v4, 0x0a0000fe⟩⟩] := by
  constructor
  · have h : (match FwsmText.parseFile tatsuGuard (silentText ++ ['\n']) with | .ok _ _ => true | _ => false) = true := by
      decide +kernel
    generalize hv : FwsmText.parseFile tatsuGuard (silentText ++ ['\n']) = v at h
    cases v with
    | ok is r => exact ⟨is, fwsm_accepts hv⟩
    | fail => cases h
    | raise e => cases h
  · have h : (match IosText.parseFile tatsuGuard silentText with
        | .ok is [] => decide (IosText.routesOf is = [⟨⟨.v4, 0x0a090000, 16⟩, .addr ⟨.v4, 0x0a0000fe⟩⟩])
        | _ => false) = true := by decide +kernel
    generalize hv : IosText.parseFile tatsuGuard silentText = v at h
    cases v with
    | ok is r =>
      cases r with
      | nil => exact ⟨is, rfl, by simpa using h⟩
      | cons => cases h
    | fail => cases h
    | raise e => cases h

/-! ## C87 -/

theorem main_fwsm {g : Guard} {pf : String → Outcome C Unit} {R : C → List Oid × (Oid → Entry)} {n fuel : Nat}
    {filter t : List Char} {is : List FwsmText.Item} {r : List Char} (h : FwsmText.parseFile g (t ++ ['\n']) = .ok is r) :
    main g pf R n fuel filter (String.ofList t) = CafFilter.main g n fuel filter (t ++ ['\n']) := by
  unfold main CafFilter.main
  rw [fwsm_accepts h, h]
  cases CafText.parse g n filter <;> rfl

theorem main_ios {g : Guard} {pf : String → Outcome C Unit} {R : C → List Oid × (Oid → Entry)} {n fuel : Nat}
    {filter t : List Char} {is : List IosText.Item} {r : List Char} (hf : FwsmText.Refused g (t ++ ['\n']))
    (h : IosText.parseFile g (t ++ ['\n']) = .ok is r) :
    main g pf R n fuel filter (String.ofList t) = IosConfig.main g n fuel filter (t ++ ['\n']) := by
  unfold main IosConfig.main IosConfig.parse
  rw [ios_accepts hf h, h]
  cases CafText.parse g n filter <;> rfl

theorem get_snoc {α : Type} {l : List α} {a b : α} {k : Nat} (hb : b ≠ a) : (l ++ [a])[k]? = some b ↔ l[k]? = some b := by
  by_cases h : k < l.length
  · rw [List.getElem?_append_left h]
  · have h' : l.length ≤ k := by omega
    rw [List.getElem?_append_right h', List.getElem?_eq_none h']
    constructor
    · intro e
      have := List.mem_of_getElem? e
      simp at this
      exact absurd this hb
    · intro e; cases e

/-- **C87.** examples/caf-filter.py on a filter text and an FWSM configuration text, with the kind of the configuration found by the
program: it delivers, without duplicates, exactly the positions of those access rules that the filter means. -/
theorem C87_filter_detected_fwsm (g : Guard) (hg : FwsmText.NameGuard g) (hg' : CafText.NameGuard g)
    (pfsense : String → Outcome C Unit) (R : C → List Oid × (Oid → Entry))
    (c : Caf.Chain) (ws : List CafText.Word) (filter : List Char) (n : Nat)
    (hc : CafText.ChainWords c ws) (ht : CafText.Written ws filter) (hok : Caf.ChainOk c) (hn : CafText.chainDepth c ≤ n)
    (config : List Char) (items : List FwsmText.Item) (s : FwsmText.St)
    (hf : FwsmText.File { env := { guard := g } } config items s) :
    ∃ N, ∀ fuel, N ≤ fuel → ∃ r, main g pfsense R n fuel filter (String.ofList config) = some (.ok r) ∧ r.Nodup ∧
      ∀ k, k ∈ r ↔ ∃ rule, items[k]? = some (.rule rule) ∧ Caf.Meaning c (CafFilter.Stated rule) := by
  obtain ⟨items', h1, h2⟩ := FwsmText.C72_file_read_as_written g hg _ _ s (fwsm_snoc hf) (by simp)
  obtain ⟨N, hN⟩ := CafFilter.C77_filter_configuration g hg hg' c ws filter n hc ht hok hn _ _ s (fwsm_snoc hf) (by simp)
  refine ⟨N, fun fuel hfuel => ?_⟩
  obtain ⟨r, i1, i2, i3⟩ := hN fuel hfuel
  refine ⟨r, by rw [main_fwsm h2, i1], i2, fun k => ?_⟩
  rw [i3]
  constructor
  · rintro ⟨rule, h, hm⟩
    exact ⟨rule, (get_snoc (by simp)).1 h, hm⟩
  · rintro ⟨rule, h, hm⟩
    exact ⟨rule, (get_snoc (by simp)).2 h, hm⟩

/-- **C87.** The same for an IOS configuration text with a version line or a rule: exactly the positions, among the rules of the
configuration, of those that the filter means. -/
theorem C87_filter_detected_ios (g : Guard) (hg : FwsmText.NameGuard g) (hg' : CafText.NameGuard g)
    (pfsense : String → Outcome C Unit) (R : C → List Oid × (Oid → Entry))
    (c : Caf.Chain) (ws : List CafText.Word) (filter : List Char) (n : Nat)
    (hc : CafText.ChainWords c ws) (ht : CafText.Written ws filter) (hok : Caf.ChainOk c) (hn : CafText.chainDepth c ≤ n)
    (config : List Char) (items : List IosText.Item) (s : FwsmText.St)
    (hf : IosText.File { env := { guard := g } } config items s) (htell : ∃ i ∈ items, Telling i) (e : List Char)
    (hend : IosText.Ends e) :
    ∃ N, ∀ fuel, N ≤ fuel → ∃ r, main g pfsense R n fuel filter (String.ofList (config ++ e)) = some (.ok r) ∧ r.Nodup ∧
      ∀ k, k ∈ r ↔ ∃ rule, (IosText.rulesOf items)[k]? = some rule ∧ Caf.Meaning c (IosConfig.Stated rule) := by
  have hne : ∀ x, items ++ x ≠ [] := by
    obtain ⟨i, hi, -⟩ := htell
    intro x e
    rw [List.append_eq_nil_iff] at e
    rw [e.1] at hi
    cases hi
  obtain ⟨t', e', x, hx, hf', he', heq⟩ := ios_snoc hf hend
  obtain ⟨items', u, h1, h2⟩ := IosText.C80_file_read_as_written g hg t' (items ++ x) s hf' (hne x) e' he'
  have hr : FwsmText.Refused g (config ++ e ++ ['\n']) := by
    have := IosText.refused_file (g := g) hf htell (e ++ ['\n']) [] (Or.inl rfl)
    simpa using this
  obtain ⟨N, hN⟩ := IosConfig.C83_filter_ios_configuration g hg hg' c ws filter n hc ht hok hn t' (items ++ x) s hf' (hne x) e' he'
  refine ⟨N, fun fuel hfuel => ?_⟩
  obtain ⟨r, i1, i2, i3⟩ := hN fuel hfuel
  have hrules : IosText.rulesOf (items ++ x) = IosText.rulesOf items := by
    rw [IosConfig.rulesOf_append]
    rcases hx with rfl | rfl <;> simp [IosText.rulesOf]
  refine ⟨r, by rw [main_ios hr (by rw [heq]; exact h2), heq, i1], i2, fun k => ?_⟩
  rw [i3, hrules]

/-- The hypotheses are met by the sample filter and the sample configurations of both kinds. -/
theorem C87_samples (pfsense : String → Outcome C Unit) (R : C → List Oid × (Oid → Entry)) : ∃ N, ∀ fuel, N ≤ fuel →
    (∃ r, main tatsuGuard pfsense R 4 fuel CafText.sampleText (String.ofList FwsmText.sampleText) = some (.ok r) ∧ r.Nodup ∧
      ∀ k, k ∈ r ↔ ∃ rule, FwsmText.sampleItems[k]? = some (.rule rule) ∧
        Caf.Meaning CafText.sampleChain (CafFilter.Stated rule)) ∧
    ∃ r, main tatsuGuard pfsense R 4 fuel CafText.sampleText (String.ofList (IosText.sampleText ++ IosText.sampleEnd)) =
        some (.ok r) ∧ r.Nodup ∧ ∀ k, k ∈ r ↔ ∃ rule, (IosText.rulesOf IosText.sampleItems)[k]? = some rule ∧
        Caf.Meaning CafText.sampleChain (IosConfig.Stated rule) := by
  obtain ⟨s, hs⟩ := FwsmText.sample_file
  obtain ⟨s', hs'⟩ := IosText.sample_file
  obtain ⟨N, hN⟩ := C87_filter_detected_fwsm tatsuGuard FwsmText.tatsuGuard_name CafText.tatsuGuard_caf pfsense R CafText.sampleChain
    CafText.sampleWords CafText.sampleText 4 CafText.sampleWords_chain (CafText.writtenB_sound _ _ (by decide +kernel))
    CafText.sampleChain_ok (by decide) _ _ s hs
  obtain ⟨M, hM⟩ := C87_filter_detected_ios tatsuGuard FwsmText.tatsuGuard_name CafText.tatsuGuard_caf pfsense R CafText.sampleChain
    CafText.sampleWords CafText.sampleText 4 CafText.sampleWords_chain (CafText.writtenB_sound _ _ (by decide +kernel))
    CafText.sampleChain_ok (by decide) _ _ s' hs' ⟨_, List.mem_cons_self, Or.inl ⟨_, rfl⟩⟩ IosText.sampleEnd
    (.word "line" " con 0\n access-class 10 in\nend\n".toList (by decide) ⟨_, Or.inl rfl⟩)
  exact ⟨N + M, fun fuel hf => ⟨hN fuel (by omega), hM fuel (by omega)⟩⟩

end Acltk.DetectText
