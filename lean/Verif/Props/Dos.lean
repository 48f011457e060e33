import Verif.Lemmas.DosConfig
import Verif.Props.FileText
/-!
# C105, C106: line ends
-/
namespace Acltk.Dos
open Acltk Acltk.Lookup Acltk.Detect Acltk.DetectText

variable {C : Type}

/-- TatSu's treatment of tokens looks at the next character only. -/
theorem tatsuGuard_next : NextChar tatsuGuard where
  one := fun n c t t' => rfl
  passes := fun n c t h => by simp [tatsuGuard, h]

/-- **C105.** An FWSM configuration is refused, raises or is read whatever its line ends are, and the same items are read but for a
carriage return at the end of free text. -/
theorem C105_fwsm_partial (g : Guard) (hg : NextChar g) (t t' : Text) (he : LineEnds t t') (hr : '\r' ∉ t)
    (hd : NoLineEndsIn "description" t) :
    SameOutcome (All2 SameItem) (FwsmText.parseFile g t) (FwsmText.parseFile g t') :=
  parseFile_sim hg he ⟨hr, by simpa using hd⟩

/-- **C105.** The same for IOS. -/
theorem C105_ios_partial (g : Guard) (hg : NextChar g) (t t' : Text) (he : LineEnds t t') (hr : '\r' ∉ t)
    (hd : NoLineEndsIn "description" t) (hm : NoLineEndsIn "motd" t) :
    SameOutcome (All2 SameIos) (IosText.parseFile g t) (IosText.parseFile g t') :=
  iosParseFile_sim hg he ⟨hr, by simpa using ⟨hd, hm⟩⟩

/-- **C106.** A filter means the same whatever its line ends are. -/
theorem C106_filter_text (g : Guard) (hg : NextChar g) (n : Nat) (t t' : Text) (he : LineEnds t t') (hr : '\r' ∉ t) :
    CafText.parse g n t' = CafText.parse g n t :=
  cafParse_eq hg n he hr

/-- The pfSense reader does not see how lines end (XML 1.0, 2.11: both line ends are passed on as a line feed). -/
def XmlLineEnds (pfsense : String → Outcome C Unit) : Prop :=
  ∀ t t', LineEnds t t' → '\r' ∉ t → pfsense (String.ofList t') = pfsense (String.ofList t)

/-- Configurations that are the same but for a carriage return at the end of free text. -/
inductive SameCfg : Cfg C → Cfg C → Prop
  | fwsm {l l'} : All2 SameItem l l' → SameCfg (.fwsm l) (.fwsm l')
  | ios {l l'} : All2 SameIos l l' → SameCfg (.ios l) (.ios l')
  | pfsense (c) : SameCfg (.pfsense c) (.pfsense c)

/-- The same configuration but for a carriage return at the end of free text, or the same exception. -/
inductive SameDetected : Outcome (Cfg C) Unit → Outcome (Cfg C) Unit → Prop
  | config {c c'} : SameCfg c c' → SameDetected (.config c) (.config c')
  | exception : SameDetected (.exception ()) (.exception ())
  | baseException : SameDetected (.baseException ()) (.baseException ())

/-- **C105.** The kind of a configuration is found whatever its line ends are. -/
theorem C105_detect_partial (g : Guard) (hg : NextChar g) (pfsense : String → Outcome C Unit) (hx : XmlLineEnds pfsense)
    (t t' : Text) (he : LineEnds t t') (hr : '\r' ∉ t)
    (hd : NoLineEndsIn "description" (t ++ ['\n'])) (hm : NoLineEndsIn "motd" (t ++ ['\n'])) :
    SameDetected (detect g pfsense (String.ofList t)) (detect g pfsense (String.ofList t')) := by
  have he' : LineEnds (t ++ ['\n']) (t' ++ ['\n']) := he.append (LineEnds.refl _)
  have hr' : '\r' ∉ t ++ ['\n'] := by simp [hr]
  have h1 := C105_fwsm_partial g hg _ _ he' hr' hd
  have h2 := C105_ios_partial g hg _ _ he' hr' hd hm
  have h3 := hx _ _ he' hr'
  have e : ∀ u : Text, String.ofList u ++ "\n" = String.ofList (u ++ ['\n']) := fun u => by
    rw [← String.toList_inj]; simp
  unfold detect fromString
  rw [e, e]
  simp only [tryParsers, fwsmParser, iosParser, pfsenseParser, String.toList_ofList]
  rw [h3]
  revert h1
  generalize FwsmText.parseFile g (t ++ ['\n']) = x; generalize FwsmText.parseFile g (t' ++ ['\n']) = y
  intro h1
  revert h2
  generalize IosText.parseFile g (t ++ ['\n']) = u; generalize IosText.parseFile g (t' ++ ['\n']) = w
  intro h2
  cases h1 with
  | parsed h => exact .config (.fwsm h)
  | refused =>
    cases h2 with
    | parsed h => exact .config (.ios h)
    | refused => cases pfsense (String.ofList (t ++ ['\n'])) with
      | config c => exact .config (.pfsense c)
      | exception e => exact .exception
      | baseException e => exact .baseException
    | raised => cases pfsense (String.ofList (t ++ ['\n'])) with
      | config c => exact .config (.pfsense c)
      | exception e => exact .exception
      | baseException e => exact .baseException
  | raised =>
    cases h2 with
    | parsed h => exact .config (.ios h)
    | refused => cases pfsense (String.ofList (t ++ ['\n'])) with
      | config c => exact .config (.pfsense c)
      | exception e => exact .exception
      | baseException e => exact .baseException
    | raised => cases pfsense (String.ofList (t ++ ['\n'])) with
      | config c => exact .config (.pfsense c)
      | exception e => exact .exception
      | baseException e => exact .baseException

/-- **C105, C106.** examples/caf-filter.py selects the same rules whatever the line ends of the filter and of the configuration are. -/
theorem C105_filter_partial (g : Guard) (hg : NextChar g) (pfsense : String → Outcome C Unit) (hx : XmlLineEnds pfsense)
    (R : C → List Oid × (Oid → Entry)) (n fuel : Nat) (f f' : Text) (hf : LineEnds f f') (hfr : '\r' ∉ f)
    (t t' : Text) (he : LineEnds t t') (hr : '\r' ∉ t)
    (hd : NoLineEndsIn "description" (t ++ ['\n'])) (hm : NoLineEndsIn "motd" (t ++ ['\n'])) :
    DetectText.main g pfsense R n fuel f' (String.ofList t') = DetectText.main g pfsense R n fuel f (String.ofList t) := by
  have h1 := C105_detect_partial g hg pfsense hx t t' he hr hd hm
  unfold DetectText.main
  rw [C106_filter_text g hg n f f' hf hfr]
  cases CafText.parse g n f with
  | fail => rfl
  | raise e => rfl
  | ok e r =>
    simp only
    revert h1
    generalize detect g pfsense (String.ofList t) = x; generalize detect g pfsense (String.ofList t') = y
    intro h1
    cases h1 with
    | exception => rfl
    | baseException => rfl
    | config h =>
      cases h with
      | fwsm h => exact congrArg some (fwsmRun_eq h fuel e)
      | ios h => exact congrArg some (iosRun_eq h fuel e)
      | pfsense c => rfl

/-- **C105, C106.** The same for the filter of examples/render/static.py, which selects NAT entries too. -/
theorem C105_select_partial (g : Guard) (hg : NextChar g) (pfsense : String → Outcome C Unit) (hx : XmlLineEnds pfsense)
    (P : C → Caf.Expr → Py (List Oid)) (n fuel : Nat) (f f' : Text) (hf : LineEnds f f') (hfr : '\r' ∉ f)
    (t t' : Text) (he : LineEnds t t') (hr : '\r' ∉ t)
    (hd : NoLineEndsIn "description" (t ++ ['\n'])) (hm : NoLineEndsIn "motd" (t ++ ['\n'])) :
    ConfigFilter.select g pfsense P n fuel f' (String.ofList t') = ConfigFilter.select g pfsense P n fuel f (String.ofList t) := by
  have h1 := C105_detect_partial g hg pfsense hx t t' he hr hd hm
  unfold ConfigFilter.select
  rw [C106_filter_text g hg n f f' hf hfr]
  revert h1
  generalize detect g pfsense (String.ofList t) = x; generalize detect g pfsense (String.ofList t') = y
  intro h1
  cases h1 with
  | exception => rfl
  | baseException => rfl
  | config h =>
    cases CafText.parse g n f with
    | fail => rfl
    | raise e => rfl
    | ok e r =>
      cases h with
      | fwsm h => exact congrArg some (ofFwsm_eq h fuel e)
      | ios h => exact congrArg some (ofIos_eq h fuel e)
      | pfsense c => rfl

/-- **C105, C106.** The same for files. -/
theorem C105_files_partial (g : Guard) (hg : NextChar g) (pfsense : String → Outcome C Unit) (hx : XmlLineEnds pfsense)
    (R : C → List Oid × (Oid → Entry)) (n fuel : Nat) (f f' : Text) (hf : LineEnds f f') (hfr : '\r' ∉ f)
    (t t' : Text) (he : LineEnds t t') (hr : '\r' ∉ t)
    (hd : NoLineEndsIn "description" (t ++ ['\n'])) (hm : NoLineEndsIn "motd" (t ++ ['\n']))
    (bf bf' bt bt' : List UInt8) (h1 : FileText.Holds f bf) (h2 : FileText.Holds f' bf') (h3 : FileText.Holds t bt) (h4 : FileText.Holds t' bt') :
    FileText.main g pfsense R n fuel bf' bt' = FileText.main g pfsense R n fuel bf bt := by
  have h := C105_filter_partial g hg pfsense hx R n fuel f f' hf hfr t t' he hr hd hm
  unfold FileText.main FileText.cafFromFile FileText.configFromFile
  rw [(FileText.C95_decoded _ _).2 h1, (FileText.C95_decoded _ _).2 h2, (FileText.C95_decoded _ _).2 h3, (FileText.C95_decoded _ _).2 h4]
  exact h

/-! ## samples -/

/-- Blanks. -/
def blank (c : Char) : Bool := c == ' ' || c == '\t'

/-- Whether a line ends in the word. -/
def lineEndsIn (k : String) : Text → Bool
  | [] => false
  | c :: t => (k.toList.isPrefixOf (c :: t) && ((c :: t).drop k.toList.length |>.dropWhile blank).head? == some '\n') || lineEndsIn k t

theorem noLineEndsIn {k : String} (hk : k.toList ≠ []) {t : Text} (h : lineEndsIn k t = false) : NoLineEndsIn k t := by
  intro a b c e
  cases hb : b.all blank with
  | false =>
    rw [List.all_eq_false] at hb
    obtain ⟨d, hd, hn⟩ := hb
    simp only [blank, Bool.or_eq_true, beq_iff_eq, not_or] at hn
    exact ⟨d, hd, hn.1, hn.2⟩
  | true =>
    exfalso
    induction a generalizing t with
    | nil =>
      cases t with
      | nil => simp at e
      | cons x t =>
        simp only [lineEndsIn, Bool.or_eq_false_iff, Bool.and_eq_false_iff] at h
        rcases h.1 with h | h
        · rw [e] at h
          rw [List.nil_append, List.isPrefixOf_iff_prefix.2 (List.prefix_append _ _)] at h
          cases h
        · rw [e, List.nil_append, List.drop_left] at h
          have : (b ++ '\n' :: c).dropWhile blank = '\n' :: c := by
            rw [List.dropWhile_append_of_pos (by simpa using hb)]
            simp [blank]
          rw [this] at h
          cases h
    | cons x a ih =>
      cases t with
      | nil => cases e
      | cons y t =>
        rw [List.cons_append, List.cons.injEq] at e
        simp only [lineEndsIn, Bool.or_eq_false_iff] at h
        exact ih h.2 e.2

/-- A configuration with a description and a remark. -/
def sampleText : Text :=
  "hostname fw\naccess-list x remark first\naccess-list x extended permit ip host 10.0.0.1 any\nobject-group network a\n description The a\n network-object host 10.0.0.1\n".toList

/-- The hypotheses are met. -/
theorem C105_sample : '\r' ∉ sampleText ∧ NoLineEndsIn "description" sampleText ∧ NoLineEndsIn "motd" sampleText ∧
    LineEnds sampleText (dos sampleText) ∧ dos sampleText ≠ sampleText ∧
    (∃ items, FwsmText.parseFile tatsuGuard sampleText = .ok items []) ∧ ∃ items, FwsmText.parseFile tatsuGuard (dos sampleText) = .ok items [] := by
  refine ⟨by decide +kernel, noLineEndsIn (by decide) (by decide +kernel), noLineEndsIn (by decide) (by decide +kernel), LineEnds.all _,
    by decide +kernel, ?_, ?_⟩
  · have h : (match FwsmText.parseFile tatsuGuard sampleText with | .ok _ [] => true | _ => false) = true := by decide +kernel
    generalize FwsmText.parseFile tatsuGuard sampleText = v at h
    match v, h with
    | .ok items [], _ => exact ⟨items, rfl⟩
  · have h : (match FwsmText.parseFile tatsuGuard (dos sampleText) with | .ok _ [] => true | _ => false) = true := by decide +kernel
    generalize FwsmText.parseFile tatsuGuard (dos sampleText) = v at h
    match v, h with
    | .ok items [], _ => exact ⟨items, rfl⟩

/-- The descriptions of network groups and interfaces, and the remarks, that a text gives. -/
def freeText (t : Text) : List (List Char) :=
  match FwsmText.parseFile tatsuGuard t with
  | .ok items _ => items.flatMap (fun i => match i with
    | .netGroup _ _ (some d) => [d]
    | .iface i => i.description.toList.map String.toList
    | .remarks l => l
    | .rule r => r.remark
    | _ => [])
  | _ => []

/-- **C105 is violated**: descriptions and remarks of a text with DOS line ends keep the carriage return. -/
theorem C105_violated_free_text : freeText sampleText = ["first".toList, "The a".toList] ∧
    freeText (dos sampleText) = ["first\r".toList, "The a\r".toList] := by
  constructor <;> decide +kernel

/-- A description without text. -/
def emptyDescription : Text := "object-group network a\n description \n network-object host 10.0.0.1\n".toList

/-- **C105 is violated**: a group with a description without text makes the reader fail with AssertionError (the description is not
taken, and the group is left without members), but with DOS line ends it is read: the description is the carriage return. -/
theorem C105_violated_empty_description :
    FwsmText.parseFile tatsuGuard emptyDescription = .raise .assertion ∧
    (∃ items, FwsmText.parseFile tatsuGuard (dos emptyDescription) = .ok items []) ∧ freeText (dos emptyDescription) = [['\r']] := by
  refine ⟨?_, ?_, by decide +kernel⟩
  · have h : (match FwsmText.parseFile tatsuGuard emptyDescription with | .raise .assertion => true | _ => false) = true := by decide +kernel
    generalize FwsmText.parseFile tatsuGuard emptyDescription = v at h
    match v, h with
    | .raise .assertion, _ => rfl
  · have h : (match FwsmText.parseFile tatsuGuard (dos emptyDescription) with | .ok _ [] => true | _ => false) = true := by decide +kernel
    generalize FwsmText.parseFile tatsuGuard (dos emptyDescription) = v at h
    match v, h with
    | .ok items [], _ => exact ⟨items, rfl⟩

/-- A banner whose text begins on the next line. -/
def emptyBanner : Text := "hostname r1\nbanner motd \nWelcome\naccess-list 10 permit any\n".toList

/-- **C105 is violated**: a banner without a delimiter is refused, and accepted with DOS line ends: the carriage return is the delimiter. -/
theorem C105_violated_empty_banner :
    IosText.parseFile tatsuGuard emptyBanner = .fail ∧ ∃ items, IosText.parseFile tatsuGuard (dos emptyBanner) = .ok items [] := by
  refine ⟨?_, ?_⟩
  · have h : (match IosText.parseFile tatsuGuard emptyBanner with | .fail => true | _ => false) = true := by decide +kernel
    generalize IosText.parseFile tatsuGuard emptyBanner = v at h
    match v, h with
    | .fail, _ => rfl
  · have h : (match IosText.parseFile tatsuGuard (dos emptyBanner) with | .ok _ [] => true | _ => false) = true := by decide +kernel
    generalize IosText.parseFile tatsuGuard (dos emptyBanner) = v at h
    match v, h with
    | .ok items [], _ => exact ⟨items, rfl⟩

/-- A filter over several lines, with a comment over two of them. -/
def sampleFilter : Text := "/* the *\n servers */\nip src 10.0.0.0/8\nunion\nip dst any\n".toList

/-- The hypotheses are met, and both texts are accepted. -/
theorem C106_sample : '\r' ∉ sampleFilter ∧ LineEnds sampleFilter (dos sampleFilter) ∧ dos sampleFilter ≠ sampleFilter ∧
    ∃ e, CafText.parse tatsuGuard 5 sampleFilter = .ok e [] ∧ CafText.parse tatsuGuard 5 (dos sampleFilter) = .ok e [] := by
  refine ⟨by decide +kernel, LineEnds.all _, by decide +kernel, ?_⟩
  have h : (match CafText.parse tatsuGuard 5 sampleFilter with | .ok _ [] => true | _ => false) = true := by decide +kernel
  rw [C106_filter_text tatsuGuard tatsuGuard_next 5 sampleFilter (dos sampleFilter) (LineEnds.all _) (by decide +kernel)]
  generalize CafText.parse tatsuGuard 5 sampleFilter = v at h
  match v, h with
  | .ok e [], _ => exact ⟨e, rfl, rfl⟩

end Acltk.Dos
