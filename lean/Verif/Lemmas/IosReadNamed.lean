import Verif.Lemmas.IosReadList
/-!
# Reading named and IPv6 lists
-/
namespace Acltk.IosText
open Acltk Acltk.Lookup Acltk.Peg Acltk.AclText
open Acltk.FwsmText (St Bare LineRest Aft Sta ip4_read known_word kwWord tok_self refer_end sta_of_bare NoSp Members sp_cons)

variable {rest : Text} {g : Guard}

/-! ## rules -/

/-- An optional sequence number. -/
def seqNo : P (Option Unit) := opt (do
  let _ ← intP
  ws)

theorem seqW_word {sq : List String} (h : SeqW sq) : ∀ w ∈ sq, Word w := by
  cases h with
  | none => simp
  | some n hn =>
    intro w hw
    rw [List.mem_singleton.1 hw]
    exact (digits_idWord hn.1 hn.2).word

theorem seqNo_read {sq : List String} (h : SeqW sq) {w : String} {wl : List String} (hw : Word w)
    (hd : ∀ c ∈ w.toList.head?, c.isDigit = false) {t : Text} (hs : Sta false rest (sq ++ w :: wl) t) :
    ∃ o t', seqNo t = .ok o t' ∧ Sta false rest (w :: wl) t' := by
  cases h with
  | none =>
    refine ⟨none, t, ?_, hs⟩
    obtain ⟨t1, rfl, h1⟩ := hs
    apply opt_fail
    apply bind_fail
    apply intP_fail
    intro c hc
    cases hl : w.toList with
    | nil => exact absurd hl hw.1
    | cons d l =>
      rw [hl] at hc; simp at hc; subst hc
      exact hd _ (by rw [hl]; rfl)
  | some n hn =>
    obtain ⟨t1, rfl, h1⟩ := hs
    have h1 : Aft false rest (w :: wl) t1 := h1
    obtain ⟨t2, h2, h3⟩ := h1.blanks hw
    refine ⟨some (), t2, ?_, h3⟩
    apply opt_ok
    rw [bind_ok (intP_digits hn.1 hn.2 h1.eow)]
    exact h2

theorem mode_first {m : String} (hm : m ∈ ["permit", "deny"]) : ∀ c ∈ m.toList.head?, c.isDigit = false :=
  kwFirst (l := ["permit", "deny"]) (by decide +kernel) hm

theorem seqMode_read (hg : GuardOk g) {sq : List String} (h : SeqW sq) {m w : String} {wl : List String}
    (hm : m ∈ ["permit", "deny"]) (hw : Word w) {t : Text} (hs : Sta false rest (sq ++ m :: w :: wl) t) :
    ∃ t', seqMode g t = .ok m t' ∧ Sta false rest (w :: wl) t' := by
  obtain ⟨o, t1, h1, t2, rfl, h2⟩ := seqNo_read h (mode_word hm) (mode_first hm) hs
  obtain ⟨t3, h3, h4⟩ := h2.blanks hw
  refine ⟨t3, ?_, h4⟩
  unfold seqMode
  refine (bind_ok h1).trans ?_
  rw [bind_ok (mode_read hg hm h2.eow), bind_ok h3]
  rfl

theorem namedExtended_read {e : Env} (he : e.WF) {sq : List String} (hq : SeqW sq) {wl : List String} {r : IRule}
    (h : ExtBody e (HostW e) wl r) {t : Text} (hs : Sta false rest (sq ++ wl) t) :
    ∃ d, (∀ k, dGet d k = dGet r.options k) ∧ namedExtended e t = .ok { r with options := d } rest := by
  have hg := he.guardOk
  cases h with
  | general m pw sw dw ow p s d o os hm hp hn1 hn2 hsw hdw ha hj how ho =>
    obtain ⟨pf, pl, rfl, hpf⟩ := protoFirst he hp
    obtain ⟨t1, h1, h2⟩ := seqMode_read hg hq hm hpf hs
    obtain ⟨o', h3, h4⟩ := general_read he (reads_ios he) ext_fits ext_digit ext_ports hp hsw hdw ha hj how h2
    refine ⟨o', optionsAre_eq h3 ho, ?_⟩
    unfold namedExtended
    rw [alts_fail (by
      refine (bind_ok h1).trans ?_
      exact notIcmp he hp hn1 hn2 h2 _)]
    apply alts_ok
    refine (bind_ok h1).trans ?_
    exact h4 (fun p s d o => pure ({ id := "", mode := m, protocol := p, src := s, dst := d, options := o } : IRule))
  | icmp m p sw dw cw ow s d c o os hm hp hsw hdw hj hcw how ho =>
    have hpf : Word p := mem_word (l := ["icmp", "icmp6"]) (by decide +kernel) hp
    obtain ⟨t1, h1, h2⟩ := seqMode_read hg hq hm hpf hs
    obtain ⟨o', h3, h4⟩ := icmpRule_read he (reads_ios he) hp hsw hdw hj hcw how h2
    refine ⟨o', optionsAre_eq h3 ho, ?_⟩
    unfold namedExtended
    apply alts_ok
    refine (bind_ok h1).trans ?_
    exact h4 (fun p s d c o => pure (IRule.mk "" none m (.name p) ⟨s, none⟩ ⟨d, none⟩ [] o c))

theorem namedStandard_read {e : Env} (he : e.WF) {sq : List String} (hq : SeqW sq) {wl : List String} {r : IRule}
    (h : StdBody e wl r) {t : Text} (hs : Sta false rest (sq ++ wl) t) :
    ∃ d, (∀ k, dGet d k = dGet r.options k) ∧ namedStandard e t = .ok { r with options := d } rest := by
  cases h with
  | mk m sw ow s o os hm hsw how ho =>
    obtain ⟨sf, sl, rfl, hsf⟩ := hostFirst he hsw
    obtain ⟨t1, h1, h2⟩ := seqMode_read he.guardOk hq hm hsf hs
    obtain ⟨o', h3, h4⟩ := standard_read he hsw how h2
    refine ⟨o', optionsAre_eq h3 ho, ?_⟩
    unfold namedStandard
    refine (bind_ok h1).trans ?_
    exact h4 (fun s o => pure (IRule.mk "" none m (.name "ip") ⟨s, none⟩ ⟨.any, none⟩ [] o none))

/-! ## remarks -/

theorem namedRemark_no (hg : GuardOk g) {sq : List String} (hq : SeqW sq) {m : String} {wl : List String}
    (hm : m ∈ ["permit", "deny"]) {t : Text} (hs : Sta false rest (sq ++ m :: wl) t) : namedRemark g (' ' :: t) = .fail := by
  obtain ⟨o, t1, h1, t2, rfl, h2⟩ := seqNo_read hq (mode_word hm) (mode_first hm) hs
  unfold namedRemark
  rw [bind_ok (sp_cons t)]
  refine (bind_ok h1).trans ?_
  apply bind_fail
  refine tok_no hg (noBlank_of_decide (by decide +kernel)) h2.eow ?_
  simp only [List.mem_cons, List.not_mem_nil, or_false] at hm
  rcases hm with rfl | rfl <;> decide +kernel

theorem namedRemark_stop (hr : NoSp rest) : namedRemark g rest = .fail := bind_fail (FwsmText.sp_fail hr)

theorem namedRemark_read (hg : GuardOk g) {sq : List String} (hq : SeqW sq) {h r : List Char} (hs : Spaced (sq ++ ["remark"]) h)
    (hr : '\n' ∉ r) (u : Text) : namedRemark g (' ' :: (h ++ (' ' :: (r ++ '\n' :: u)))) = .ok r u := by
  have hw : Word "remark" := word_of_decide (by decide +kernel)
  have hseq : ∃ o t', seqNo (h ++ (' ' :: (r ++ '\n' :: u))) = .ok o t' ∧ t' = "remark".toList ++ (' ' :: (r ++ '\n' :: u)) := by
    cases hq with
    | none =>
      cases hs with
      | cons _ _ _ _ _ _ h3 => cases h3
      | one _ => 
        refine ⟨none, _, opt_fail (bind_fail (intP_fail ?_)), rfl⟩
        intro c hc; simp at hc; subst hc; decide
    | some n hn =>
      cases hs with
      | cons w x ws' t h1 h2 h3 =>
        cases h3 with
        | cons _ _ _ _ _ _ h7 => cases h7
        | one _ =>
          refine ⟨some (), _, opt_ok ?_, rfl⟩
          simp only [List.append_assoc]
          rw [bind_ok (intP_digits hn.1 hn.2 (blanks_end h1 h2)), ws_ok h1 h2 (word_head hw _)]
  obtain ⟨o, t', h1, rfl⟩ := hseq
  unfold namedRemark
  rw [bind_ok (sp_cons _)]
  refine (bind_ok h1).trans ?_
  have hend : EndOfWord (' ' :: (r ++ '\n' :: u)) :=
    blanks_end (b := [' ']) (by simp) (by intro c hc; simp at hc; exact Or.inl hc)
  rw [bind_ok (tok_self hg (by decide +kernel) hend),
    bind_ok (sp_cons _), bind_ok (FwsmText.toeol_read hr u), bind_ok (FwsmText.nl_lf u)]
  rfl

theorem remarks_read (hg : GuardOk g) {t : List Char} {rs : List (List Char)} (h : Remarks t rs) {u : Text}
    (hu : namedRemark g u = .fail) : many (namedRemark g) (t ++ u) = .ok rs u := by
  induction h with
  | nil => exact many_fail hu
  | cons sq h r t rs hq hs hr _ ih =>
    have := namedRemark_read hg hq hs hr (t ++ u)
    simp only [List.append_assoc, List.cons_append] at this ⊢
    refine many_ok this ?_ ih
    simp only [List.length_append, List.length_cons]; omega

/-! ## entries -/

theorem entry_read (hg : GuardOk g) {p : P IRule} {rt l : List Char} {rs : List (List Char)} {sq wl : List String} {r' : IRule}
    (hrt : Remarks rt rs) (hq : SeqW sq) (hm : ∃ m l', wl = m :: l' ∧ m ∈ ["permit", "deny"]) (hl : Bare (sq ++ wl) l)
    (hp : p (l ++ rest) = .ok r' rest) (hrem : r'.remark = []) :
    namedEntry g p (rt ++ (' ' :: (l ++ rest))) = .ok { r' with remark := rs } rest := by
  obtain ⟨m, l', rfl, hm⟩ := hm
  have hno := namedRemark_no hg hq hm (sta_of_bare (rest := rest) hl)
  unfold namedEntry remarked
  cases hrt with
  | nil =>
    rw [List.nil_append, alt_fail (bind_fail (many1_fail hno)), bind_ok (sp_cons _), hp]
    cases r'; simp at hrem; subst hrem; rfl
  | cons sq' h q t rs hq' hs hr hrest =>
    apply alt_ok
    have h1 := namedRemark_read hg hq' hs hr (t ++ (' ' :: (l ++ rest)))
    have h2 := remarks_read hg hrest hno
    simp only [List.append_assoc, List.cons_append] at h1 ⊢
    rw [bind_ok (many1_ok h1 h2), bind_ok (by rw [bind_ok (sp_cons _)]; exact hp)]
    rfl

theorem entry_stop {p : P IRule} (hr : NoSp rest) : namedEntry g p rest = .fail := by
  unfold namedEntry remarked
  rw [alt_fail (bind_fail (many1_fail (namedRemark_stop hr)))]
  exact bind_fail (FwsmText.sp_fail hr)

/-- What reads the rules of a named list. -/
structure ReadsBody (e : Env) (B : List String → IRule → Prop) (p : P IRule) : Prop where
  first : ∀ {wl r}, B wl r → ∃ m l', wl = m :: l' ∧ m ∈ ["permit", "deny"]
  remark : ∀ {wl r}, B wl r → r.remark = []
  read : ∀ {wl r sq} {t rest : Text}, B wl r → SeqW sq → Sta false rest (sq ++ wl) t →
    ∃ d, (∀ k, dGet d k = dGet r.options k) ∧ p t = .ok { r with options := d } rest

theorem readsBody_ext {e : Env} (he : e.WF) : ReadsBody e (ExtBody e (HostW e)) (namedExtended e) where
  first := extBody_first
  remark := fun h => by cases h <;> rfl
  read := fun h hq hs => namedExtended_read he hq h hs

theorem readsBody_std {e : Env} (he : e.WF) : ReadsBody e (StdBody e) (namedStandard e) where
  first := stdBody_first
  remark := fun h => by cases h; rfl
  read := fun h hq hs => namedStandard_read he hq h hs

theorem entries_read {e : Env} (he : e.WF) {B : List String → IRule → Prop} {p : P IRule} (hB : ReadsBody e B p)
    {t : List Char} {rs : List IRule} (h : Entries B t rs) (hr : NoSp rest) :
    ∃ rs', SameRules rs rs' ∧ many (namedEntry e.guard p) (t ++ rest) = .ok rs' rest := by
  induction h with
  | nil => exact ⟨[], .nil, many_fail (entry_stop hr)⟩
  | cons rt l t rs sq ws r l' hrt hq hb hl _ ih =>
    obtain ⟨rs', h1, h2⟩ := ih
    obtain ⟨d, h3, h4⟩ := hB.read hb hq (sta_of_bare (rest := t ++ rest) hl)
    have h5 := entry_read he.guardOk hrt hq (hB.first hb) hl h4 (by rw [← hB.remark hb])
    refine ⟨{ r with options := d, remark := rs } :: rs', .cons _ _ _ _ ⟨h3, rfl⟩ h1, ?_⟩
    · simp only [List.append_assoc, List.cons_append]
      refine many_ok h5 ?_ h2
      simp only [List.length_append, List.length_cons]; omega

theorem sameRules_map {f : IRule → IRule} (hf : ∀ r r', SameRule r r' → SameRule (f r) (f r')) {l l' : List IRule}
    (h : SameRules l l') : SameRules (l.map f) (l'.map f) := by
  induction h with
  | nil => exact .nil
  | cons r r' l l' h _ ih => exact .cons _ _ _ _ (hf _ _ h) ih

theorem sameRule_named {n x : String} {r r' : IRule} (h : SameRule r r') :
    SameRule { r with id := n, extended := some x } { r' with id := n, extended := some x } := by
  obtain ⟨h1, h2⟩ := h
  refine ⟨h1, ?_⟩
  cases r; cases r'; simp at h2 ⊢; simp_all

theorem named_read {e : Env} (he : e.WF) {B : List String → IRule → Prop} {p : P IRule} (hB : ReadsBody e B p)
    {k n : String} (hk : (k.toList.all (fun c => !isBlank c)) = true) (hn : IdWord n) {t : List Char} {rs : List IRule}
    (h : Entries B t rs) (hr : NoSp rest) {u : Text} (hs : Sta false (t ++ rest) [k, n] u) :
    ∃ rs', SameRules (rs.map (fun r => { r with id := n, extended := some k })) rs' ∧
      (tok e.guard k >>= fun x => ws >>= fun _ => objName >>= fun n => nl >>= fun _ => many (namedEntry e.guard p) >>= fun l =>
        pure (l.map (fun r => ({ r with id := String.ofList n, extended := some x } : IRule)))) u = .ok rs' rest := by
  obtain ⟨t1, rfl, h1⟩ := hs
  obtain ⟨t2, h2, t3, rfl, h3⟩ := h1.blanks hn.word
  obtain ⟨rs', h4, h5⟩ := entries_read he hB h hr
  refine ⟨_, sameRules_map (fun _ _ => sameRule_named) h4, ?_⟩
  rw [bind_ok (tok_self he.guardOk hk h1.eow), bind_ok h2, bind_ok (objName_read hn h3.eow), bind_ok h3.nl, bind_ok h5,
    String.ofList_toList]
  rfl

theorem ipExtended_read {e : Env} (he : e.WF) {n : String} (hn : IdWord n) {t : List Char} {rs : List IRule}
    (h : Entries (ExtBody e (HostW e)) t rs) (hr : NoSp rest) {u : Text} (hs : Sta false (t ++ rest) ["extended", n] u) :
    ∃ rs', SameRules (rs.map (fun r => { r with id := n, extended := some "extended" })) rs' ∧
      ipAccessList e u = .ok rs' rest := by
  obtain ⟨rs', h1, h2⟩ := named_read he (readsBody_ext he) (by decide +kernel) hn h hr hs
  refine ⟨rs', h1, ?_⟩
  unfold ipAccessList
  rw [alt_fail (FwsmText.kw_no he.guardOk hs (word_of_decide (by decide +kernel)) (by decide +kernel) (by decide) _)]
  exact h2

theorem ipStandard_read {e : Env} (he : e.WF) {n : String} (hn : IdWord n) {t : List Char} {rs : List IRule}
    (h : Entries (StdBody e) t rs) (hr : NoSp rest) {u : Text} (hs : Sta false (t ++ rest) ["standard", n] u) :
    ∃ rs', SameRules (rs.map (fun r => { r with id := n, extended := some "standard" })) rs' ∧
      ipAccessList e u = .ok rs' rest := by
  obtain ⟨rs', h1, h2⟩ := named_read he (readsBody_std he) (by decide +kernel) hn h hr hs
  refine ⟨rs', h1, ?_⟩
  unfold ipAccessList
  exact alt_ok h2

end Acltk.IosText
