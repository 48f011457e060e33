import Verif.Lemmas.IosReadHost
/-!
# Reading the rules of an IOS configuration
-/
namespace Acltk.IosText
open Acltk Acltk.Lookup Acltk.Peg Acltk.AclText
open Acltk.FwsmText (St Bare LineRest Aft Sta ip4_read known_word kwWord tok_self refer_end sta_of_bare NoSp Members)

variable {rest : Text} {g : Guard}

/-! ## icmp -/

/-- A word that is neither an ICMP type nor a group. -/
def NoIcmp (w : String) : Prop :=
  (∀ c ∈ w.toList.head?, c.isDigit = false) ∧ (∀ k ∈ icmpNames, mayMatch w k = false) ∧ mayMatch w "object-group" = false

theorem ext_noIcmp : ∀ w ∈ extForms.flags ++ extForms.values ++ extForms.logs, NoIcmp w := by
  intro w hw
  exact ⟨kwFirst (by decide +kernel) hw,
    (by decide +kernel : ∀ w ∈ extForms.flags ++ extForms.values ++ extForms.logs, ∀ k ∈ icmpNames, mayMatch w k = false) w hw,
    (by decide +kernel : ∀ w ∈ extForms.flags ++ extForms.values ++ extForms.logs, mayMatch w "object-group" = false) w hw⟩

theorem no_more {e : Env} (he : e.WF) {w : String} (hw : Word w) (h : NoIcmp w) {t : Text} (ht : EndOfWord t) :
    intP (w.toList ++ t) = .fail ∧ icmpType e.guard (w.toList ++ t) = .fail ∧
      tok e.guard "object-group" (w.toList ++ t) = .fail := by
  have hg := he.guardOk
  have h1 : intP (w.toList ++ t) = .fail := by
    apply intP_fail
    intro c hc
    cases hl : w.toList with
    | nil => exact absurd hl hw.1
    | cons d l =>
      rw [hl] at hc; simp at hc; subst hc
      exact h.1 _ (by rw [hl]; rfl)
  refine ⟨h1, ?_, tok_no hg (noBlank_of_decide (by decide +kernel)) ht h.2.2⟩
  unfold icmpType
  rw [alt_fail (bind_fail (ahead_fail (bind_fail (oneOf_no hg ht (kwNoBlank (by decide +kernel)) h.2.1))))]
  exact bind_fail h1

theorem icmpP_read {e : Env} (he : e.WF) {cw : List String} {v : Option IcmpVal} (h : IcmpWords e cw v)
    {ow : List String} (how : ∀ w ∈ ow, Word w) (ho : ∀ w ∈ ow.head?, NoIcmp w) {t : Text}
    (hs : Aft false rest (cw ++ ow) t) : ∃ t', icmpOptions e t = .ok v t' ∧ Aft false rest ow t' := by
  have hg := he.guardOk
  have hwords := h.words he
  -- what does not begin with an ICMP type
  have skip : ∀ {β : Type} {f : P β} {t : Text}, Aft false rest ow t →
      (∀ w t', w ∈ ow.head? → EndOfWord t' → f (w.toList ++ t') = .fail) → (ws >>= fun _ => f) t = .fail := by
    intro β f t ht hf
    cases ow with
    | nil => exact bind_fail ht.noWs
    | cons w ow =>
      obtain ⟨t1, h1, t2, rfl, h2⟩ := ht.blanks (how w (by simp))
      rw [bind_ok h1]
      exact hf w t2 (by simp) h2.eow
  have nm : ∀ {w : String} {t' : Text}, w ∈ ow.head? → EndOfWord t' → _ := fun {w t'} hw ht' =>
    no_more he (how w (by cases ow with
      | nil => simp at hw
      | cons a l => simp at hw; simp [hw])) (ho w hw) ht'
  have nogroup : ∀ {w : String} {t : Text}, (w ∈ icmpNames ∨ ByteWord w) → EndOfWord t →
      ∀ {β : Type} (f : String → Unit → P β), (tok e.guard "object-group" >>= fun x => ws >>= f x) (w.toList ++ t) = .fail := by
    intro w t hw ht β f
    apply kw_other hg (noBlank_of_decide (by decide +kernel)) _ ht
    · rintro rfl
      rcases hw with hw | hw
      · revert hw; decide +kernel
      · have := hw.1.2 'o' (by decide); revert this; decide
    · rcases hw with hw | hw
      · exact (mem_word (l := icmpNames) (by decide +kernel) hw).noBlank
      · exact hw.word.noBlank
  cases h with
  | none =>
    refine ⟨t, ?_, hs⟩
    have hs : Aft false rest ow t := hs
    unfold icmpOptions
    rw [alts_fail (skip hs (fun w t' hw ht' => bind_fail (nm hw ht').2.2)),
      alts_fail (skip hs (fun w t' hw ht' => bind_fail (nm hw ht').2.1))]
    exact alts_ok rfl
  | group w o hk =>
    obtain ⟨t1, h1, t2, rfl, h2⟩ := Aft.blanks hs (hwords _ (by simp))
    have h2 : Aft false rest (w :: ow) t2 := h2
    obtain ⟨t3, h3, t', rfl, h4⟩ := h2.blanks (hwords w (by simp))
    refine ⟨t', ?_, h4⟩
    unfold icmpOptions
    apply alts_ok
    rw [bind_ok h1, bind_ok (tok_self hg (by decide +kernel) h2.eow), bind_ok h3,
      bind_ok (refer_known hg he.icmpGroups hk h4.eow)]
    rfl
  | type w hw =>
    obtain ⟨t1, h1, t2, rfl, h2⟩ := Aft.blanks hs (hwords _ (by simp))
    have h2 : Aft false rest ow t2 := h2
    refine ⟨t2, ?_, h2⟩
    unfold icmpOptions
    rw [alts_fail (by rw [bind_ok h1]; exact nogroup hw h2.eow _)]
    apply alts_ok
    rw [bind_ok h1, bind_ok (icmpType_read hg hw h2.eow),
      bind_ok (opt_fail (skip h2 (fun w t' hw ht' => bind_fail (nm hw ht').1)))]
    rfl
  | code w c hw hc =>
    obtain ⟨t1, h1, t2, rfl, h2⟩ := Aft.blanks hs (hwords _ (by simp))
    have h2 : Aft false rest (c :: ow) t2 := h2
    obtain ⟨t3, h3, t', rfl, h4⟩ := h2.blanks (hwords c (by simp))
    refine ⟨t', ?_, h4⟩
    unfold icmpOptions
    rw [alts_fail (by rw [bind_ok h1]; exact nogroup hw h2.eow _)]
    apply alts_ok
    have hcode : (ws >>= fun _ => intP >>= fun s => act (icmpCodeInt s) >>= fun n =>
        pure (String.ofList n)) t2 = .ok c t' := by
      rw [bind_ok h3, bind_ok (intP_digits hc.1.1 hc.1.2 h4.eow),
        bind_ok (act_ok (((C34_number_checks c.toList c.toList hc.1).2.2.2).2 ⟨rfl, hc.2.2, hc.2.1⟩) _),
        String.ofList_toList]
      rfl
    rw [bind_ok h1, bind_ok (icmpType_read hg hw h2.eow), bind_ok (opt_ok hcode)]
    rfl

theorem icmp_noAddr {e : Env} {cw : List String} {v : Option IcmpVal} (h : IcmpWords e cw v) {ow : List String}
    (ho : NoAddr ow) : NoAddr (cw ++ ow) := by
  have ty : ∀ {w : String}, (w ∈ Words.icmpTypes ∨ ByteWord w) → (∀ c ∈ w.toList.head?, c.isDigit = false) ∨ DigitText w.toList := by
    intro w hw
    rcases hw with hw | hw
    · exact Or.inl (kwFirst (l := Words.icmpTypes) (by decide +kernel) hw)
    · exact Or.inr hw.1
  intro w hw
  cases h with
  | none => exact ho w hw
  | group a o _ => simp at hw; subst hw; exact Or.inl (by decide)
  | type a ha => simp at hw; subst hw; exact ty ha
  | code a c ha _ => simp at hw; subst hw; exact ty ha

theorem opts_noAddr {f : OptForms} (hf : (∀ k ∈ f.flags ++ f.values ++ f.logs, Word k))
    (hd : ((f.flags ++ f.values ++ f.logs).all (fun k => !(k.toList.head?.map Char.isDigit).getD true)) = true)
    {ow : List String} {os : List (String × Option String)} (h : OptW f ow os) : NoAddr ow :=
  fun w hw => Or.inl (kwFirst hd ((h.words hf).2 w hw))

theorem opts_noPort {e : Env} {f : OptForms} (hf : (∀ k ∈ f.flags ++ f.values ++ f.logs, Word k))
    (hd : ∀ k ∈ f.flags ++ f.values ++ f.logs, k ∉ ["gt", "lt", "eq", "neq", "range", "object-group"])
    {ow : List String} {os : List (String × Option String)} (h : OptW f ow os) : NoPort e ow := by
  cases ow with
  | nil => trivial
  | cons w ow =>
    have := hd w ((h.words hf).2 w (by simp))
    refine ⟨fun hm => this ?_, fun hm => absurd (by rw [hm]; simp) this⟩
    simp only [List.mem_cons, List.not_mem_nil, or_false] at hm ⊢
    rcases hm with h | h | h | h | h <;> simp [h]

/-! ## the parts of a rule -/

/-- Protocol, source, destination, options and the end of the line. -/
theorem general_read {e : Env} (he : e.WF) {H : List String → Host → Prop} {hp : P Host} (hr : Reads e H hp)
    {f : OptForms} {l : List (String × Arg)} (hf : Fits f l)
    (hd1 : ((f.flags ++ f.values ++ f.logs).all (fun k => !(k.toList.head?.map Char.isDigit).getD true)) = true)
    (hd2 : ∀ k ∈ f.flags ++ f.values ++ f.logs, k ∉ ["gt", "lt", "eq", "neq", "range", "object-group"])
    {pw sw dw ow : List String} {p : Proto} {s d : PNode} {os : List (String × Option String)}
    (hpw : ProtoWords e pw p) (hsw : NodeW e H sw s) (hdw : NodeW e H dw d) (ha : ¬ Ambiguous e s dw) (hj : ¬ Joined sw dw)
    (how : OptW f ow os) {t : Text} (hs : Sta false rest (pw ++ (sw ++ (dw ++ ow))) t) :
    ∃ o, OptionsAre o os ∧ ∀ {β : Type} (k : Proto → PNode → PNode → Dict String (Option String) → P β),
      (aclProtocol e >>= fun p => ws >>= fun _ => nodeOf e hp >>= fun s => ws >>= fun _ => nodeOf e hp >>= fun d =>
        optionsOf e.guard l >>= fun o => nl >>= fun _ => k p s d o) t = k p s d o rest := by
  have hg := he.guardOk
  obtain ⟨sne, swd⟩ := hsw.words he hr
  obtain ⟨dne, dwd⟩ := hdw.words he hr
  obtain ⟨owd, oh⟩ := how.words hf.words
  have hmore : ∀ w ∈ dw ++ ow, Word w := by
    intro w hw
    rcases List.mem_append.1 hw with hw | hw
    · exact dwd w hw
    · exact owd w hw
  obtain ⟨t2, h3, h4⟩ := proto_readE he hpw (sta_toE hs)
  have h4 := aft_ofE h4
  obtain ⟨sf, sl, hsl⟩ : ∃ a l, sw = a :: l := by
    cases sw with
    | nil => exact absurd rfl sne
    | cons a l => exact ⟨a, l, rfl⟩
  obtain ⟨df, dl, hdl⟩ : ∃ a l, dw = a :: l := by
    cases dw with
    | nil => exact absurd rfl dne
    | cons a l => exact ⟨a, l, rfl⟩
  obtain ⟨t3, h5, h6⟩ : ∃ t', ws t2 = .ok () t' ∧ Sta false rest (sw ++ (dw ++ ow)) t' := by
    rw [hsl] at h4 ⊢; exact Aft.blanks h4 (swd sf (by rw [hsl]; simp))
  obtain ⟨t4, h7, h8⟩ := nodeOf_read he hr hsw hmore (fun hn => hdw.noPort hr dne ha hn ow)
    (fun hn => hsw.sep hr hdw hj hn ow) h6
  obtain ⟨t5, h9, h10⟩ : ∃ t', ws t4 = .ok () t' ∧ Sta false rest (dw ++ ow) t' := by
    rw [hdl] at h8 ⊢; exact Aft.blanks h8 (dwd df (by rw [hdl]; simp))
  obtain ⟨t6, h11, h12⟩ := nodeOf_read he hr hdw owd (fun _ => opts_noPort hf.words hd2 how)
    (fun _ _ _ _ _ _ => opts_noAddr hf.words hd1 how) h10
  obtain ⟨t7, o, h13, h14, h15⟩ := optionsOf_read hg hf how h12
  refine ⟨o, h15, fun k => ?_⟩
  rw [bind_ok h3, bind_ok h5, bind_ok h7, bind_ok h9, bind_ok h11, bind_ok h13, bind_ok h14]

/-- ICMP: source, destination, type, options and the end of the line. -/
theorem icmpRule_read {e : Env} (he : e.WF) {H : List String → Host → Prop} {hp : P Host} (hr : Reads e H hp)
    {p : String} {sw dw cw ow : List String} {s d : Host} {c : Option IcmpVal} {os : List (String × Option String)}
    (hpi : p ∈ ["icmp", "icmp6"]) (hsw : H sw s) (hdw : H dw d) (hj : ¬ Joined sw dw) (hcw : IcmpWords e cw c)
    (how : OptW extForms ow os) {t : Text} (hs : Sta false rest (p :: (sw ++ (dw ++ (cw ++ ow)))) t) :
    ∃ o, OptionsAre o os ∧ ∀ {β : Type} (k : String → Host → Host → Option IcmpVal → Dict String (Option String) → P β),
      (oneOf e.guard ["icmp", "icmp6"] >>= fun p => ws >>= fun _ => hp >>= fun s => ws >>= fun _ => hp >>= fun d =>
        icmpOptions e >>= fun c => optionsOf e.guard extOptions >>= fun o => nl >>= fun _ => k p s d c o) t =
        k p s d c o rest := by
  have hg := he.guardOk
  obtain ⟨sne, swd⟩ := hr.words hsw
  obtain ⟨dne, dwd⟩ := hr.words hdw
  have cwd := hcw.words he
  obtain ⟨owd, oh⟩ := how.words ext_fits.words
  have hmore2 : ∀ w ∈ cw ++ ow, Word w := by
    intro w hw
    rcases List.mem_append.1 hw with hw | hw
    · exact cwd w hw
    · exact owd w hw
  have hmore : ∀ w ∈ dw ++ (cw ++ ow), Word w := by
    intro w hw
    rcases List.mem_append.1 hw with hw | hw
    · exact dwd w hw
    · exact hmore2 w hw
  obtain ⟨t2, rfl, h2⟩ := hs
  obtain ⟨sf, sl, hsl⟩ : ∃ a l, sw = a :: l := by
    cases sw with
    | nil => exact absurd rfl sne
    | cons a l => exact ⟨a, l, rfl⟩
  obtain ⟨df, dl, hdl⟩ : ∃ a l, dw = a :: l := by
    cases dw with
    | nil => exact absurd rfl dne
    | cons a l => exact ⟨a, l, rfl⟩
  have h3 := oneOf_word hg (w := p) (l := ["icmp", "icmp6"]) h2.eow (kwNoBlank (by decide +kernel)) (by
    simp only [List.mem_cons, List.not_mem_nil, or_false] at hpi
    rcases hpi with rfl | rfl <;> decide +kernel)
  obtain ⟨t3, h5, h6⟩ : ∃ t', ws t2 = .ok () t' ∧ Sta false rest (sw ++ (dw ++ (cw ++ ow))) t' := by
    rw [hsl] at h2 ⊢; exact Aft.blanks h2 (swd sf (by rw [hsl]; simp))
  obtain ⟨t4, h7, h8⟩ := hr.read hsw hmore (hr.sep hsw hdw hj _) h6
  obtain ⟨t5, h9, h10⟩ : ∃ t', ws t4 = .ok () t' ∧ Sta false rest (dw ++ (cw ++ ow)) t' := by
    rw [hdl] at h8 ⊢; exact Aft.blanks h8 (dwd df (by rw [hdl]; simp))
  obtain ⟨t6, h11, h12⟩ := hr.read hdw hmore2
    (fun _ _ _ _ _ => icmp_noAddr hcw (opts_noAddr ext_fits.words (by decide +kernel) how)) h10
  obtain ⟨t7, h13, h14⟩ := icmpP_read he hcw owd (fun w hw => ext_noIcmp w (oh w hw)) h12
  obtain ⟨t8, o, h15, h16, h17⟩ := optionsOf_read hg ext_fits how h14
  refine ⟨o, h17, fun k => ?_⟩
  rw [bind_ok h3, bind_ok h5, bind_ok h7, bind_ok h9, bind_ok h11, bind_ok h13, bind_ok h15, bind_ok h16]

/-- The icmp form does not apply to another protocol. -/
theorem notIcmp {e : Env} (he : e.WF) {pw : List String} {p : Proto} (hp : ProtoWords e pw p) (h1 : pw ≠ ["icmp"])
    (h2 : pw ≠ ["icmp6"]) {more : List String} {t : Text} (hs : Sta false rest (pw ++ more) t) {β : Type}
    (f : String → Unit → P β) : (oneOf e.guard ["icmp", "icmp6"] >>= fun p => ws >>= f p) t = .fail := by
  obtain ⟨pne, pwd⟩ := hp.words he
  obtain ⟨pf, pl, rfl⟩ : ∃ a l, pw = a :: l := by
    cases pw with
    | nil => exact absurd rfl pne
    | cons a l => exact ⟨a, l, rfl⟩
  have hnic : pf ∉ ["icmp", "icmp6"] := by
    intro hm'
    simp only [List.mem_cons, List.not_mem_nil, or_false] at hm'
    cases hp with
    | code w hw => rcases hm' with rfl | rfl <;> simp at h1 h2
    | number w hd => rcases hm' with rfl | rfl <;> simp at h1 h2
    | svcGroup w o hk => exact absurd hm' (by decide)
    | protoGroup w o hk _ => exact absurd hm' (by decide)
    | svcObj w o hk => exact absurd hm' (by decide)
  exact FwsmText.kws_no he.guardOk hs (pwd pf (by simp)) (by decide +kernel) hnic f

end Acltk.IosText
