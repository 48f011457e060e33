import Verif.Lemmas.Utf8
import Verif.Props.AcceptedFilter
/-!
# C95: configurations and filters from files

`String.utf8EncodeChar`, the UTF-8 encoding of a character, is the one of Lean's library.
-/
namespace Acltk.FileText
open Acltk Acltk.Lookup Acltk.Detect Acltk.DetectText Acltk.Caf

variable {C T : Type}

/-- The text in UTF-8. -/
def Utf8 (t : List Char) : List UInt8 := t.flatMap String.utf8EncodeChar

/-- The byte order mark U+FEFF. -/
def mark : Char := Char.ofNat 0xfeff

/-- The file holds the text `t`: in UTF-8, with a byte order mark in front or without one. -/
def Holds (t : List Char) (bs : List UInt8) : Prop :=
  bs = Utf8 (mark :: t) ∨ bs = Utf8 t ∧ t.head? ≠ some mark

theorem utf8_mark (t : List Char) : Utf8 (mark :: t) = bom ++ Utf8 t := by
  have : String.utf8EncodeChar mark = bom := by decide
  unfold Utf8
  rw [List.flatMap_cons, this]

/-- Three bytes like the mark at the beginning of a text in UTF-8 are the mark. -/
theorem take_bom {t : List Char} (h : (Utf8 t).take 3 = bom) : t.head? = some mark := by
  have e : Utf8 t = bom ++ (Utf8 t).drop 3 := by rw [← h, List.take_append_drop]
  cases t with
  | nil => exact absurd h (by decide)
  | cons c t =>
    have h1 := decodeOne_encode c (Utf8 t)
    have h2 := decodeOne_encode mark ((Utf8 (c :: t)).drop 3)
    have h3 : String.utf8EncodeChar mark = bom := by decide
    rw [h3, ← e] at h2
    have h4 : Utf8 (c :: t) = String.utf8EncodeChar c ++ Utf8 t := rfl
    rw [h4] at h2
    rw [h1] at h2
    cases h2
    rfl

/-- **C95.** Exactly the files that hold a text in UTF-8 are decoded, to that text; every other file raises UnicodeDecodeError. -/
theorem C95_decoded (bs : List UInt8) (t : List Char) : utf8Sig bs = some t ↔ Holds t bs := by
  unfold utf8Sig
  rw [utf8Decode_iff]
  constructor
  · intro h
    split at h
    · rename_i hb
      refine Or.inl ?_
      rw [utf8_mark, show Utf8 t = bs.drop 3 from h.symm, ← hb, List.take_append_drop]
    · rename_i hb
      refine Or.inr ⟨h, fun hm => hb ?_⟩
      cases t with
      | nil => cases hm
      | cons c t =>
        cases hm
        rw [h, show (mark :: t).flatMap String.utf8EncodeChar = Utf8 (mark :: t) from rfl, utf8_mark]
        rfl
  · rintro (rfl | ⟨rfl, hm⟩)
    · rw [utf8_mark, if_pos (by rfl)]
      rfl
    · rw [if_neg (fun h => hm (take_bom h))]
      rfl

/-- A file holds one text at most. -/
theorem holds_unique {bs : List UInt8} {t u : List Char} (h1 : Holds t bs) (h2 : Holds u bs) : t = u := by
  rw [← C95_decoded] at h1 h2
  rw [h1] at h2
  cases h2
  rfl

/-- **C95.** A configuration file gives what `fromString` gives for the text it holds, with a byte order mark or without one; a file
that holds no text in UTF-8 is refused, whatever is in it. -/
theorem C95_config_file (g : Guard) (pfsense : String → Outcome C Unit) (bs : List UInt8) :
    (∀ t, Holds t bs → configFromFile g pfsense bs = detect g pfsense (String.ofList t)) ∧
    ((∀ t, ¬ Holds t bs) → configFromFile g pfsense bs = .exception ()) ∧
    ∀ c, configFromFile g pfsense bs = .config c → ∃ t, Holds t bs ∧ detect g pfsense (String.ofList t) = .config c := by
  have h1 : ∀ t, Holds t bs → configFromFile g pfsense bs = detect g pfsense (String.ofList t) := by
    intro t h
    unfold configFromFile
    rw [(C95_decoded bs t).2 h]
  have h2 : (∀ t, ¬ Holds t bs) → configFromFile g pfsense bs = .exception () := by
    intro h
    unfold configFromFile
    cases hd : utf8Sig bs with
    | none => rfl
    | some t => exact absurd ((C95_decoded bs t).1 hd) (h t)
  refine ⟨h1, h2, fun c hc => ?_⟩
  cases hd : utf8Sig bs with
  | none =>
    rw [h2 (fun t ht => by rw [(C95_decoded bs t).2 ht] at hd; cases hd)] at hc
    cases hc
  | some t =>
    have ht := (C95_decoded bs t).1 hd
    exact ⟨t, ht, by rw [← h1 t ht]; exact hc⟩

/-- **C95.** The same for a filter file. -/
theorem C95_filter_file (g : Guard) (n : Nat) (bs : List UInt8) :
    (∀ t, Holds t bs → cafFromFile g n bs = CafText.parse g n t) ∧
    ((∀ t, ¬ Holds t bs) → cafFromFile g n bs = .fail) ∧
    ∀ e r, cafFromFile g n bs = .ok e r → ∃ t, Holds t bs ∧ CafText.parse g n t = .ok e r := by
  have h1 : ∀ t, Holds t bs → cafFromFile g n bs = CafText.parse g n t := by
    intro t h
    unfold cafFromFile
    rw [(C95_decoded bs t).2 h]
  have h2 : (∀ t, ¬ Holds t bs) → cafFromFile g n bs = .fail := by
    intro h
    unfold cafFromFile
    cases hd : utf8Sig bs with
    | none => rfl
    | some t => exact absurd ((C95_decoded bs t).1 hd) (h t)
  refine ⟨h1, h2, fun e r hc => ?_⟩
  cases hd : utf8Sig bs with
  | none =>
    rw [h2 (fun t ht => by rw [(C95_decoded bs t).2 ht] at hd; cases hd)] at hc
    cases hc
  | some t =>
    have ht := (C95_decoded bs t).1 hd
    exact ⟨t, ht, by rw [← h1 t ht]; exact hc⟩

/-- The programs on files do what they do on the texts. -/
theorem main_file (g : Guard) (pfsense : String → Outcome C Unit) (R : C → List Oid × (Oid → Entry)) (n fuel : Nat)
    {ff cf : List UInt8} {filter config : List Char} (hf : Holds filter ff) (hc : Holds config cf) :
    main g pfsense R n fuel ff cf = DetectText.main g pfsense R n fuel filter (String.ofList config) := by
  unfold main DetectText.main
  rw [(C95_filter_file g n ff).1 _ hf, (C95_config_file g pfsense cf).1 _ hc]
  cases CafText.parse g n filter with
  | ok e r => cases detect g pfsense (String.ofList config) <;> rfl
  | _ => rfl

theorem select_file (g : Guard) (pfsense : String → Outcome C Unit) (P : C → Caf.Expr → Py (List Oid)) (n fuel : Nat)
    {ff cf : List UInt8} {filter config : List Char} (hf : Holds filter ff) (hc : Holds config cf) :
    select g pfsense P n fuel ff cf = ConfigFilter.select g pfsense P n fuel filter (String.ofList config) := by
  unfold select ConfigFilter.select
  rw [(C95_filter_file g n ff).1 _ hf, (C95_config_file g pfsense cf).1 _ hc]
  cases detect g pfsense (String.ofList config) with
  | config c => cases CafText.parse g n filter <;> cases c <;> rfl
  | _ => rfl

/-- **C95.** Whatever two files are accepted, the filter of the one selects from the rules of the other: what C93 says of texts holds of
the files.  The filter file holds the words of a filter `c`, and unless an id is a pattern with degenerate brackets exactly what `c`
means is selected. -/
theorem C95_accepted_files_are_filtered (g : Guard) (xml : String → Option Pf.Elem) (v : Pf.Env T) (n : Nat)
    (ff cf : List UInt8) (rest : List Char) (e : Expr) (hf : cafFromFile g n ff = .ok e rest)
    (cfg : Cfg (Nat × Pf.Parsed T)) (hc : configFromFile g (PfFilter.parser xml v) cf = .config cfg) :
    ∃ filter, Holds filter ff ∧ ∃ c ws, CafText.ChainOf CafText.AnyBody c ws ∧ CafText.Loose ws filter ∧ ∃ N, ∀ fuel, N ≤ fuel →
      (∃ r, main g (PfFilter.parser xml v) PfFilter.rules n fuel ff cf = some (.ok r) ∧ r.Nodup ∧
        (∀ k ∈ r, ∃ x, Accepted.RuleAt cfg k x) ∧
        ((∀ i ∈ chainIds c, SaneId i) → ∀ k x, Accepted.RuleAt cfg k x → SaneEntry x → (k ∈ r ↔ Meaning c x))) ∧
      ∃ r, select g (PfFilter.parser xml v) (PfFilter.filter fuel) n fuel ff cf = some (.ok r) ∧ r.Nodup ∧
        (∀ k ∈ r, ∃ x, Accepted.RuleAt cfg k x ∨ Accepted.NatAt cfg k x) ∧
        ((∀ i ∈ chainIds c, SaneId i) → ∀ k x, Accepted.RuleAt cfg k x ∨ Accepted.NatAt cfg k x → SaneEntry x →
          (k ∈ r ↔ Meaning c x)) := by
  obtain ⟨filter, h1, h2⟩ := (C95_filter_file g n ff).2.2 e rest hf
  obtain ⟨config, h3, h4⟩ := (C95_config_file g _ cf).2.2 cfg hc
  obtain ⟨c, ws, i1, i2, N, i3⟩ := Accepted.C93_accepted_texts_are_filtered g xml v n filter rest e h2 (String.ofList config) cfg h4
  refine ⟨filter, h1, c, ws, i1, i2, N, fun fuel hfuel => ?_⟩
  rw [main_file g _ _ n fuel h1 h3, select_file g _ _ n fuel h1 h3]
  exact i3 fuel hfuel

/-- **C95.** Only one byte order mark is skipped: what begins with a second one is left to the pfSense parser. -/
theorem C95_second_mark (g : Guard) (pfsense : String → Outcome C Unit) (t : List Char) :
    configFromFile g pfsense (Utf8 (mark :: mark :: t)) = pfsenseParser pfsense (String.ofList (mark :: t) ++ "\n") := by
  rw [(C95_config_file g pfsense _).1 (mark :: t) (Or.inl rfl)]
  exact C86_other_text g pfsense [] (by simp) mark (Or.inr (by decide)) t

/-! ## samples -/

/-- The sample file of C72, with a byte order mark: the FWSM configuration. -/
theorem C95_sample (pfsense : String → Outcome C Unit) :
    ∃ items', FwsmText.SameItems (FwsmText.sampleItems ++ [.nothing]) items' ∧
      configFromFile tatsuGuard pfsense (Utf8 (mark :: FwsmText.sampleText)) = .config (.fwsm items') ∧
      configFromFile tatsuGuard pfsense (Utf8 FwsmText.sampleText) = .config (.fwsm items') := by
  obtain ⟨items', h1, h2⟩ := (C86_samples pfsense).1
  refine ⟨items', h1, ?_, ?_⟩
  · rw [(C95_config_file _ _ _).1 FwsmText.sampleText (Or.inl rfl)]; exact h2
  · rw [(C95_config_file _ _ _).1 FwsmText.sampleText (Or.inr ⟨rfl, by decide +kernel⟩)]; exact h2

/-- A file in Latin-1 with a letter outside ASCII is refused, an overlong line feed and a surrogate as well. -/
theorem C95_sample_refused (g : Guard) (pfsense : String → Outcome C Unit) :
    configFromFile g pfsense [0x21, 0x20, 0xe4, 0x0a] = .exception () ∧ configFromFile g pfsense [0x21, 0xc0, 0x8a] = .exception () ∧
    configFromFile g pfsense [0x21, 0xed, 0xa0, 0x80] = .exception () := by
  have : ∀ bs, utf8Sig bs = none → configFromFile g pfsense bs = .exception () := by
    intro bs h
    unfold configFromFile
    rw [h]
  refine ⟨this _ ?_, this _ ?_, this _ ?_⟩ <;> decide +kernel

end Acltk.FileText
