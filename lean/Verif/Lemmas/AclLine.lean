import Verif.Lemmas.AclPort
/-!
# Reading the options and the whole line
-/
namespace Acltk.AclText
open Acltk Acltk.Lookup Acltk.Peg

/-- The position at the next word or, behind the last word and the blanks, at the end of the line. -/
def At (rest : Text) : List String → Text → Prop
  | [], t => ∃ n, (n = ['\n'] ∨ n = ['\r', '\n']) ∧ t = n ++ rest
  | w :: ws, t => Starts rest (w :: ws) t

theorem At.after {rest t : Text} (h : At rest [] t) : After rest [] t := by
  obtain ⟨n, hn, rfl⟩ := h
  exact ⟨[], n, by intro c hc; simp at hc, hn, rfl⟩

theorem At.noWs {rest t : Text} {wl : List String} (hw : ∀ w ∈ wl, Word w) (h : At rest wl t) : ws t = .fail := by
  apply ws_fail
  cases wl with
  | nil =>
    obtain ⟨n, hn, rfl⟩ := h
    rcases hn with rfl | rfl <;> (intro c hc; simp at hc; subst hc; decide)
  | cons w wl =>
    obtain ⟨t', rfl, -⟩ := h
    have hw := hw w (by simp)
    intro c hc
    cases hl : w.toList with
    | nil => exact absurd hl hw.1
    | cons d l =>
      rw [hl] at hc; simp at hc; subst hc
      have := hw.2 d (by rw [hl]; simp)
      simp at this
      exact ⟨this.1, this.2.1⟩

/-- Blanks are skipped if there are any; then the next word or the end of the line follows. -/
theorem After.skip {rest t : Text} {wl : List String} (hw : ∀ w ∈ wl, Word w) (h : After rest wl t) :
    (wl = [] ∧ ws t = .fail ∧ At rest [] t) ∨ ∃ t', ws t = .ok () t' ∧ At rest wl t' ∧ t'.length < t.length := by
  cases wl with
  | nil =>
    obtain ⟨b, n, hb, hn, rfl⟩ := h
    have hh : ∀ c ∈ (n ++ rest).head?, c ≠ ' ' ∧ c ≠ '\t' := by
      rcases hn with rfl | rfl <;> (intro c hc; simp at hc; subst hc; decide)
    by_cases hne : b = []
    · subst hne
      exact Or.inl ⟨rfl, ws_fail hh, n, hn, rfl⟩
    · refine Or.inr ⟨n ++ rest, ws_ok hne hb hh, ⟨n, hn, rfl⟩, ?_⟩
      have : 0 < b.length := List.length_pos_iff.2 hne
      simp only [List.length_append]; omega
  | cons w wl =>
    obtain ⟨b, t', hne, hb, rfl, ht⟩ := h
    refine Or.inr ⟨w.toList ++ t', ?_, ⟨t', rfl, ht⟩, ?_⟩
    · have hw := hw w (by simp)
      apply ws_ok hne hb
      intro c hc
      cases hl : w.toList with
      | nil => exact absurd hl hw.1
      | cons d l =>
        rw [hl] at hc; simp at hc; subst hc
        have := hw.2 d (by rw [hl]; simp)
        simp at this
        exact ⟨this.1, this.2.1⟩
    · have : 0 < b.length := List.length_pos_iff.2 hne
      simp only [List.length_append]; omega

/-! ## icmp -/

theorem ByteWord.word {w : String} (h : ByteWord w) : Word w := digitText_word h.1

theorem find_icmpNames : ∀ w ∈ icmpNames, icmpNames.find? (mayMatch w) = some w := by decide +kernel

theorem icmpType_read {g : Guard} (hg : GuardOk g) {w : String} (h : w ∈ icmpNames ∨ ByteWord w) {t : Text}
    (ht : EndOfWord t) : icmpType g (w.toList ++ t) = .ok w t := by
  have hb := kwNoBlank (l := icmpNames) (by decide +kernel)
  unfold icmpType
  rcases h with h | ⟨hd, hl, hv⟩
  · have h1 := oneOf_word hg ht hb (find_icmpNames w h)
    apply alt_ok
    rw [bind_ok (ahead_ok (a := ()) (r := t) (by rw [bind_ok h1]; exact endOfWord_ok ht)), h1]
  · have h1 : oneOf g icmpNames (w.toList ++ t) = .fail :=
      oneOf_no hg ht hb (digit_noMatch (by decide +kernel) hd)
    rw [alt_fail (bind_fail (ahead_fail (bind_fail h1))), bind_ok (intP_digits hd.1 hd.2 ht),
      bind_ok (act_ok (((C34_number_checks w.toList w.toList hd).2.2.1).2 ⟨rfl, hv, hl⟩) _), String.ofList_toList]
    rfl

/-- The words that begin an option. -/
def optionWords : List String := ["log", "time-range", "inactive"]

theorem OptWords.words {e : Env} (he : e.WF) {ow : List String} {os : List Opt} (h : OptWords e ow os) :
    (∀ w ∈ ow, Word w) ∧ ∀ w ∈ ow.head?, w ∈ optionWords := by
  have logw : ∀ {lw l}, LogWords lw l → ∀ w ∈ lw, Word w := by
    intro lw l h
    induction h with
    | nil => simp
    | level w ws l hw _ ih =>
      intro x hx
      rcases List.mem_cons.1 hx with rfl | hx
      · exact mem_word (by decide +kernel) hw
      · exact ih x hx
    | interval n ws l hn _ ih =>
      intro x hx
      simp only [List.mem_cons] at hx
      rcases hx with rfl | rfl | hx
      · exact word_of_decide (by decide +kernel)
      · exact digitText_word hn
      · exact ih x hx
  induction h with
  | nil => exact ⟨by simp, by simp⟩
  | log lw l ws os hl _ ih =>
    refine ⟨?_, by simp [optionWords]⟩
    intro w hw
    rcases List.mem_cons.1 hw with rfl | hw
    · exact word_of_decide (by decide +kernel)
    · rcases List.mem_append.1 hw with hw | hw
      · exact logw hl w hw
      · exact ih.1 w hw
  | timeRange w o ws os hk _ ih =>
    refine ⟨?_, by simp [optionWords]⟩
    intro x hx
    simp only [List.mem_cons] at hx
    rcases hx with rfl | rfl | hx
    · exact word_of_decide (by decide +kernel)
    · obtain ⟨p, hp, rfl⟩ := mem_keys hk; exact he.timeRanges p hp
    · exact ih.1 x hx
  | inactive ws os _ ih =>
    refine ⟨?_, by simp [optionWords]⟩
    intro x hx
    rcases List.mem_cons.1 hx with rfl | hx
    · exact word_of_decide (by decide +kernel)
    · exact ih.1 x hx

theorem LogWords.words {lw l} (h : LogWords lw l) : ∀ w ∈ lw, Word w := by
  induction h with
  | nil => simp
  | level w ws l hw _ ih =>
    intro x hx
    rcases List.mem_cons.1 hx with rfl | hx
    · exact mem_word (by decide +kernel) hw
    · exact ih x hx
  | interval n ws l hn _ ih =>
    intro x hx
    simp only [List.mem_cons] at hx
    rcases hx with rfl | rfl | hx
    · exact word_of_decide (by decide +kernel)
    · exact digitText_word hn
    · exact ih x hx

theorem intP_fail {t : Text} (h : ∀ c ∈ t.head?, c.isDigit = false) : intP t = .fail := pat_cls_fail h

/-- Where an option or the end of the line follows, there is no number, no ICMP type and no group. -/
theorem no_more {e : Env} (he : e.WF) {rest t : Text} {ow : List String} (hw : ∀ w ∈ ow, Word w)
    (ho : ∀ w ∈ ow.head?, w ∈ optionWords) (h : At rest ow t) :
    intP t = .fail ∧ icmpType e.guard t = .fail ∧ tok e.guard "object-group" t = .fail := by
  have hg := he.guardOk
  cases ow with
  | nil =>
    obtain ⟨n, hn, rfl⟩ := h
    have hend : EndOfWord (n ++ rest) := by rcases hn with rfl | rfl <;> exact ⟨rest, by simp⟩
    have hi : intP (n ++ rest) = .fail := by
      apply intP_fail
      rcases hn with rfl | rfl <;> (intro c hc; simp at hc; subst hc; decide)
    refine ⟨hi, ?_, tok_at_end hg (by decide +kernel) (by decide) hend⟩
    unfold icmpType
    rw [alt_fail (bind_fail (ahead_fail (bind_fail (oneOf_at_end hg (by decide +kernel) (by decide +kernel) hend))))]
    exact bind_fail hi
  | cons w ow =>
    obtain ⟨t', rfl, ht⟩ := h
    have hwo := ho w (by simp)
    have hi : intP (w.toList ++ t') = .fail := by
      apply intP_fail
      simp only [optionWords, List.mem_cons, List.not_mem_nil, or_false] at hwo
      rcases hwo with rfl | rfl | rfl <;> (intro c hc; revert hc; simp; rintro rfl; decide)
    refine ⟨hi, ?_, ?_⟩
    · unfold icmpType
      rw [alt_fail (bind_fail (ahead_fail (bind_fail (oneOf_no hg ht.endOfWord (kwNoBlank (by decide +kernel))
        ((by decide +kernel : ∀ w ∈ optionWords, ∀ k ∈ icmpNames, mayMatch w k = false) w hwo)))))]
      exact bind_fail hi
    · apply tok_no hg (noBlank_of_decide (by decide +kernel)) ht.endOfWord
      simp only [optionWords, List.mem_cons, List.not_mem_nil, or_false] at hwo
      rcases hwo with rfl | rfl | rfl <;> decide +kernel

theorem IcmpWords.words {e : Env} (he : e.WF) {cw : List String} {v : Option IcmpVal} (h : IcmpWords e cw v) :
    ∀ w ∈ cw, Word w := by
  have ty : ∀ {w : String}, w ∈ icmpNames ∨ ByteWord w → Word w := by
    intro w h
    rcases h with h | h
    · exact mem_word (by decide +kernel) h
    · exact h.word
  cases h with
  | none => simp
  | group w o hk =>
    intro x hx
    simp only [List.mem_cons, List.not_mem_nil, or_false] at hx
    rcases hx with rfl | rfl
    · exact word_of_decide (by decide +kernel)
    · obtain ⟨p, hp, rfl⟩ := mem_keys hk; exact he.icmpGroups p hp
  | type w hw =>
    intro x hx
    simp only [List.mem_cons, List.not_mem_nil, or_false] at hx
    subst hx; exact ty hw
  | code w c hw hc =>
    intro x hx
    simp only [List.mem_cons, List.not_mem_nil, or_false] at hx
    rcases hx with rfl | rfl
    · exact ty hw
    · exact hc.word

theorem icmp_read {e : Env} (he : e.WF) {cw : List String} {v : Option IcmpVal} (h : IcmpWords e cw v) {rest : Text}
    {ow : List String} (how : ∀ w ∈ ow, Word w) (ho : ∀ w ∈ ow.head?, w ∈ optionWords) {t : Text}
    (hs : After rest (cw ++ ow) t) : ∃ t', icmpOptions e t = .ok v t' ∧ After rest ow t' := by
  have hg := he.guardOk
  have hwords := h.words he
  -- behind an ICMP type there is no code
  have nocode : ∀ {t : Text}, After rest ow t → (ws >>= fun _ => intP >>= fun s => act (icmpCodeInt s) >>= fun n =>
      pure (String.ofList n)) t = .fail := by
    intro t ht
    rcases After.skip how ht with ⟨-, h1, -⟩ | ⟨t', h1, h2, -⟩
    · exact bind_fail h1
    · rw [bind_ok h1]; exact bind_fail (no_more he how ho h2).1
  -- no group: the word is an ICMP type
  have nogroup : ∀ {w : String} {t : Text}, (w ∈ icmpNames ∨ ByteWord w) → EndOfWord t →
      ∀ {β : Type} (f : String → Unit → P β), (tok e.guard "object-group" >>= fun x => ws >>= f x) (w.toList ++ t) = .fail := by
    intro w t hw ht β f
    apply kw_other hg (noBlank_of_decide (by decide +kernel)) _ ht
    · rintro rfl
      rcases hw with hw | hw
      · revert hw; decide +kernel
      · have := hw.1.2 'o' (by decide); revert this; decide
    · rcases hw with hw | hw
      · exact (mem_word (l := icmpNames) (by decide +kernel) hw).noBlank
      · exact hw.word.noBlank
  cases h with
  | none =>
    refine ⟨t, ?_, hs⟩
    have hs : After rest ow t := hs
    have f1 : ∀ {β : Type} (f : P β), (∀ t', At rest ow t' → f t' = .fail) → (ws >>= fun _ => f) t = .fail := by
      intro β f hf
      rcases After.skip how hs with ⟨-, h1, -⟩ | ⟨t', h1, h2, -⟩
      · exact bind_fail h1
      · rw [bind_ok h1]; exact hf t' h2
    unfold icmpOptions
    rw [alts_fail (f1 _ (fun t' ht' => bind_fail (no_more he how ho ht').2.2)),
      alts_fail (f1 _ (fun t' ht' => bind_fail (no_more he how ho ht').2.1))]
    exact alts_ok rfl
  | group w o hk =>
    obtain ⟨t1, h1, t2, rfl, h2⟩ := After.blanks hs (hwords _ (by simp))
    have h2 : After rest (w :: ow) t2 := h2
    obtain ⟨t3, h3, t', rfl, h4⟩ := h2.blanks (hwords w (by simp))
    refine ⟨t', ?_, h4⟩
    unfold icmpOptions
    apply alts_ok
    rw [bind_ok h1, bind_ok ((tok_word (noBlank_of_decide (by decide +kernel)) h2.endOfWord hg.passes).1 rfl), bind_ok h3,
      bind_ok (refer_known hg he.icmpGroups hk h4.endOfWord)]
    rfl
  | type w hw =>
    obtain ⟨t1, h1, t2, rfl, h2⟩ := After.blanks hs (hwords _ (by simp))
    have h2 : After rest ow t2 := h2
    refine ⟨t2, ?_, h2⟩
    unfold icmpOptions
    rw [alts_fail (by rw [bind_ok h1]; exact nogroup hw h2.endOfWord _)]
    apply alts_ok
    rw [bind_ok h1, bind_ok (icmpType_read hg hw h2.endOfWord), bind_ok (opt_fail (nocode h2))]
    rfl
  | code w c hw hc =>
    obtain ⟨t1, h1, t2, rfl, h2⟩ := After.blanks hs (hwords _ (by simp))
    have h2 : After rest (c :: ow) t2 := h2
    obtain ⟨t3, h3, t', rfl, h4⟩ := h2.blanks (hwords c (by simp))
    refine ⟨t', ?_, h4⟩
    unfold icmpOptions
    rw [alts_fail (by rw [bind_ok h1]; exact nogroup hw h2.endOfWord _)]
    apply alts_ok
    have hcode : (ws >>= fun _ => intP >>= fun s => act (icmpCodeInt s) >>= fun n =>
        pure (String.ofList n)) t2 = .ok c t' := by
      rw [bind_ok h3, bind_ok (intP_digits hc.1.1 hc.1.2 h4.endOfWord),
        bind_ok (act_ok (((C34_number_checks c.toList c.toList hc.1).2.2.2).2 ⟨rfl, hc.2.2, hc.2.1⟩) _),
        String.ofList_toList]
      rfl
    rw [bind_ok h1, bind_ok (icmpType_read hg hw h2.endOfWord), bind_ok (opt_ok hcode)]
    rfl

/-! ## options -/

theorem logOption_none {e : Env} (he : e.WF) {rest t : Text} {ow : List String}
    (ho : ∀ w ∈ ow.head?, w ∈ optionWords) (h : At rest ow t) : logOption e.guard t = .ok [] t := by
  have hg := he.guardOk
  unfold logOption
  cases ow with
  | nil =>
    have hend := (At.after h).endOfWord
    rw [alts_fail (bind_fail (oneOf_at_end hg (by decide +kernel) (by decide +kernel) hend)),
      alts_fail (bind_fail (tok_at_end hg (by decide +kernel) (by decide) hend)),
      alts_fail (bind_fail (oneOf_at_end hg (by decide +kernel) (by decide +kernel) hend))]
    rfl
  | cons w ow =>
    obtain ⟨t', rfl, ht⟩ := h
    have hwo := ho w (by simp)
    rw [alts_fail (bind_fail (oneOf_no hg ht.endOfWord (kwNoBlank (by decide +kernel))
        ((by decide +kernel : ∀ w ∈ optionWords, ∀ k ∈ ["debugging", "disable", "default", "notifications", "warnings",
          "critical"], mayMatch w k = false) w hwo))),
      alts_fail (bind_fail (tok_no hg (noBlank_of_decide (by decide +kernel)) ht.endOfWord
        ((by decide +kernel : ∀ w ∈ optionWords, mayMatch w "interval" = false) w hwo))),
      alts_fail (bind_fail (oneOf_no hg ht.endOfWord (kwNoBlank (by decide +kernel))
        ((by decide +kernel : ∀ w ∈ optionWords, ∀ k ∈ ["0", "1", "2", "3", "4", "5", "6", "7"],
          mayMatch w k = false) w hwo)))]
    rfl

theorem starts_len {rest t : Text} {w : String} {wl : List String} (hw : Word w) (h : Starts rest (w :: wl) t) :
    ∃ t', t = w.toList ++ t' ∧ After rest wl t' ∧ t'.length < t.length := by
  obtain ⟨t', rfl, ht⟩ := h
  refine ⟨t', rfl, ht, ?_⟩
  have : 0 < w.toList.length := List.length_pos_iff.2 hw.1
  simp only [List.length_append]; omega

theorem log_read {e : Env} (he : e.WF) {lw : List String} {l : List (List String)} (h : LogWords lw l) {rest : Text}
    {ow : List String} (how : ∀ w ∈ ow, Word w) (ho : ∀ w ∈ ow.head?, w ∈ optionWords) :
    ∀ {t : Text}, After rest (lw ++ ow) t →
      ∃ L t', many (ws >>= fun _ => logOption e.guard) t = .ok L t' ∧ At rest ow t' ∧ t'.length ≤ t.length ∧
        L.filter (fun x => !x.isEmpty) = l := by
  have hg := he.guardOk
  induction h with
  | nil =>
    intro t hs
    rcases After.skip how hs with ⟨rfl, h1, h2⟩ | ⟨t', h1, h2, h3⟩
    · exact ⟨[], t, many_fail (bind_fail h1), h2, Nat.le_refl _, rfl⟩
    · refine ⟨[[]], t', many_ok (by rw [bind_ok h1]; exact logOption_none he ho h2) h3
        (many_fail (bind_fail (At.noWs how h2))), h2, Nat.le_of_lt h3, rfl⟩
  | level w ws l hw hl ih =>
    intro t hs
    have hwd : Word w := mem_word (l := ["debugging", "disable", "default", "notifications", "warnings", "critical", "0",
      "1", "2", "3", "4", "5", "6", "7"]) (by decide +kernel) hw
    have hall : ∀ x ∈ w :: (ws ++ ow), Word x := by
      intro x hx
      rcases List.mem_cons.1 hx with rfl | hx
      · exact hwd
      · rcases List.mem_append.1 hx with hx | hx
        · exact hl.words x hx
        · exact how x hx
    rcases After.skip hall hs with ⟨h, -⟩ | ⟨t1, h1, h2, h3⟩
    · cases h
    · obtain ⟨t2, rfl, h4, h5⟩ := starts_len hwd h2
      obtain ⟨L, t', h6, h7, h8, h9⟩ := ih h4
      have hlo : logOption e.guard (w.toList ++ t2) = .ok [w] t2 := by
        unfold logOption
        by_cases hs6 : w ∈ ["debugging", "disable", "default", "notifications", "warnings", "critical"]
        · apply alts_ok
          rw [bind_ok (oneOf_word hg h4.endOfWord (kwNoBlank (by decide +kernel)) (by
            clear hwd hall hs h2 h1 h5 h3 hw; revert w; decide +kernel))]
          rfl
        · have hd : w ∈ ["0", "1", "2", "3", "4", "5", "6", "7"] := by
            simp only [List.mem_cons, List.not_mem_nil, or_false, not_or] at hw hs6 ⊢
            simpa [hs6] using hw
          rw [alts_fail (bind_fail (oneOf_no hg h4.endOfWord (kwNoBlank (by decide +kernel)) (by
              clear hs6 hwd hall hs h2 h1 h5 h3 hw; revert w; decide +kernel))),
            alts_fail (bind_fail (tok_no hg (noBlank_of_decide (by decide +kernel)) h4.endOfWord (by
              clear hs6 hwd hall hs h2 h1 h5 h3 hw; revert w; decide +kernel)))]
          apply alts_ok
          rw [bind_ok (oneOf_word hg h4.endOfWord (kwNoBlank (by decide +kernel)) (by
            clear hs6 hwd hall hs h2 h1 h5 h3 hw; revert w; decide +kernel))]
          rfl
      refine ⟨[w] :: L, t', many_ok (by rw [bind_ok h1]; exact hlo) (by omega) h6, h7, by omega, by simp [h9]⟩
  | interval n ws l hn hl ih =>
    intro t hs
    have hk : Word "interval" := word_of_decide (by decide +kernel)
    have hnw := digitText_word hn
    have hall : ∀ x ∈ "interval" :: n :: (ws ++ ow), Word x := by
      intro x hx
      simp only [List.mem_cons] at hx
      rcases hx with rfl | rfl | hx
      · exact hk
      · exact hnw
      · rcases List.mem_append.1 hx with hx | hx
        · exact hl.words x hx
        · exact how x hx
    rcases After.skip hall hs with ⟨h, -⟩ | ⟨t1, h1, h2, h3⟩
    · cases h
    · obtain ⟨t2, rfl, h4, h5⟩ := starts_len hk h2
      rcases After.skip (fun x hx => hall x (List.mem_cons_of_mem _ hx)) h4 with ⟨h, -⟩ | ⟨t3, g1, g2, g3⟩
      · cases h
      · obtain ⟨t4, rfl, g4, g5⟩ := starts_len hnw g2
        obtain ⟨L, t', h6, h7, h8, h9⟩ := ih g4
        have hlo : logOption e.guard ("interval".toList ++ t2) = .ok ["interval", n] t4 := by
          unfold logOption
          rw [alts_fail (bind_fail (oneOf_no hg h4.endOfWord (kwNoBlank (by decide +kernel)) (by decide +kernel)))]
          apply alts_ok
          rw [bind_ok ((tok_word (noBlank_of_decide (by decide +kernel)) h4.endOfWord hg.passes).1 rfl), bind_ok g1,
            bind_ok (intP_digits hn.1 hn.2 g4.endOfWord), String.ofList_toList]
          rfl
        refine ⟨["interval", n] :: L, t', many_ok (by rw [bind_ok h1]; exact hlo) (by omega) h6, h7, by omega, by simp [h9]⟩

/-- One round of the options. -/
def round (e : Env) : P Opt := do
  let o ← aclOption e
  let _ ← opt ws
  pure o

theorem after_opt_ws {rest t : Text} {ow : List String} (how : ∀ w ∈ ow, Word w) (h : After rest ow t) (o : Opt) :
    ∃ t', (opt ws >>= fun _ => (pure o : P Opt)) t = .ok o t' ∧ At rest ow t' ∧ t'.length ≤ t.length := by
  rcases After.skip how h with ⟨rfl, h1, h2⟩ | ⟨t', h1, h2, h3⟩
  · exact ⟨t, by rw [bind_ok (opt_fail h1)]; rfl, h2, Nat.le_refl _⟩
  · exact ⟨t', by rw [bind_ok (opt_ok h1)]; rfl, h2, Nat.le_of_lt h3⟩

theorem options_read {e : Env} (he : e.WF) {ow : List String} {os : List Opt} (h : OptWords e ow os) {rest : Text} :
    ∀ {t : Text}, At rest ow t → ∃ t', many (round e) t = .ok os t' ∧ At rest [] t' := by
  have hg := he.guardOk
  induction h with
  | nil =>
    intro t hs
    refine ⟨t, ?_, hs⟩
    have hend := (At.after hs).endOfWord
    apply many_stay (a := Opt.none) (r := t) _ (Nat.lt_irrefl _)
    unfold round
    have : aclOption e t = .ok .none t := by
      unfold aclOption
      rw [alts_fail (bind_fail (tok_at_end hg (by decide +kernel) (by decide) hend)),
        alts_fail (bind_fail (tok_at_end hg (by decide +kernel) (by decide) hend)),
        alts_fail (bind_fail (tok_at_end hg (by decide +kernel) (by decide) hend))]
      rfl
    rw [bind_ok this, bind_ok (opt_fail (At.noWs (by simp) hs))]
    rfl
  | log lw l ow os hl hrest ih =>
    intro t hs
    obtain ⟨how, ho⟩ := hrest.words he
    have hk : Word "log" := word_of_decide (by decide +kernel)
    obtain ⟨t1, rfl, h1, h2⟩ := starts_len hk hs
    obtain ⟨L, t2, h3, h4, h5, h6⟩ := log_read he hl how ho h1
    obtain ⟨t', h7, h8⟩ := ih h4
    refine ⟨t', many_ok (r := t2) ?_ (by omega) h7, h8⟩
    unfold round
    have : aclOption e ("log".toList ++ t1) = .ok (.log l) t2 := by
      unfold aclOption
      apply alts_ok
      rw [bind_ok ((tok_word (noBlank_of_decide (by decide +kernel)) h1.endOfWord hg.passes).1 rfl), bind_ok h3, h6]
      rfl
    rw [bind_ok this, bind_ok (opt_fail (At.noWs how h4))]
    rfl
  | timeRange w o ow os hk hrest ih =>
    intro t hs
    obtain ⟨how, ho⟩ := hrest.words he
    have hkw : Word "time-range" := word_of_decide (by decide +kernel)
    have hw : Word w := by obtain ⟨p, hp, rfl⟩ := mem_keys hk; exact he.timeRanges p hp
    obtain ⟨t1, rfl, h1, h2⟩ := starts_len hkw hs
    rcases After.skip (wl := w :: ow) (by
      intro x hx
      rcases List.mem_cons.1 hx with rfl | hx
      · exact hw
      · exact how x hx) h1 with ⟨h, -⟩ | ⟨t3, g1, g2, g3⟩
    · cases h
    · obtain ⟨t4, rfl, g4, g5⟩ := starts_len hw g2
      obtain ⟨t5, h5, h6, h6'⟩ := after_opt_ws how g4 (.timeRange o)
      obtain ⟨t', h7, h8⟩ := ih h6
      refine ⟨t', many_ok (r := t5) ?_ (by omega) h7, h8⟩
      unfold round
      have : aclOption e ("time-range".toList ++ t1) = .ok (.timeRange o) t4 := by
        unfold aclOption
        rw [alts_fail (bind_fail (tok_no hg (noBlank_of_decide (by decide +kernel)) h1.endOfWord (by decide +kernel)))]
        apply alts_ok
        rw [bind_ok ((tok_word (noBlank_of_decide (by decide +kernel)) h1.endOfWord hg.passes).1 rfl), bind_ok g1,
          bind_ok (refer_known hg he.timeRanges hk g4.endOfWord)]
        rfl
      rw [bind_ok this, h5]
  | inactive ow os hrest ih =>
    intro t hs
    obtain ⟨how, ho⟩ := hrest.words he
    have hk : Word "inactive" := word_of_decide (by decide +kernel)
    obtain ⟨t1, rfl, h1, h2⟩ := starts_len hk hs
    obtain ⟨t5, h5, h6, h6'⟩ := after_opt_ws how h1 .inactive
    obtain ⟨t', h7, h8⟩ := ih h6
    refine ⟨t', many_ok (r := t5) ?_ (by omega) h7, h8⟩
    unfold round
    have : aclOption e ("inactive".toList ++ t1) = .ok .inactive t1 := by
      unfold aclOption
      rw [alts_fail (bind_fail (tok_no hg (noBlank_of_decide (by decide +kernel)) h1.endOfWord (by decide +kernel))),
        alts_fail (bind_fail (tok_no hg (noBlank_of_decide (by decide +kernel)) h1.endOfWord (by decide +kernel)))]
      apply alts_ok
      rw [bind_ok ((tok_word (noBlank_of_decide (by decide +kernel)) h1.endOfWord hg.passes).1 rfl)]
      rfl
    rw [bind_ok this, h5]

/-- The dictionary of the options. -/
theorem optionsAre_fold (os : List Opt) : OptionsAre (os.foldl (fun d o => match o.key with
    | some k => dSet d k o
    | Option.none => d) []) os := by
  have key : ∀ (os : List Opt) (d : Dict String Opt) (k : String),
      dGet (os.foldl (fun d o => match o.key with
        | some k => dSet d k o
        | Option.none => d) d) k = ((os.filter (fun o => o.key == some k)).getLast?).or (dGet d k) := by
    intro os
    induction os with
    | nil => intro d k; simp
    | cons o os ih =>
      intro d k
      rw [List.foldl_cons, ih]
      cases ho : o.key with
      | none => simp [ho]
      | some k' =>
        by_cases hk : k = k'
        · subst hk
          rw [List.filter_cons_of_pos (by simp [ho])]
          simp only [dGet_dSet_same]
          cases hl : os.filter (fun o => o.key == some k) with
          | nil => simp
          | cons a l => simp [Option.or, List.getLast?_cons]
        · rw [List.filter_cons_of_neg (by simp [ho]; exact fun h => hk h.symm)]
          simp only [dGet_dSet_other _ _ hk]
  intro k
  rw [key]; simp [dGet]

theorem lineEnd_read {e : Env} (he : e.WF) {ow : List String} {os : List Opt} (h : OptWords e ow os) {rest t : Text}
    (hs : After rest ow t) : ∃ d, lineEnd e t = .ok d rest ∧ OptionsAre d os := by
  obtain ⟨how, ho⟩ := h.words he
  unfold lineEnd
  rcases After.skip how hs with ⟨rfl, h1, h2⟩ | ⟨t', h1, h2, h3⟩
  · cases h
    refine ⟨[], ?_, fun k => rfl⟩
    rw [bind_ok (opt_fail (bind_fail h1)), After.finish hs]
    rfl
  · obtain ⟨t2, h4, h5⟩ := options_read he h h2
    refine ⟨_, ?_, optionsAre_fold os⟩
    have : (ws >>= fun _ => aclOptions e) t = .ok (os.foldl (fun d o => match o.key with
        | some k => dSet d k o
        | Option.none => d) []) t2 := by
      rw [bind_ok h1]
      unfold aclOptions
      rw [show (many (do
        let o ← aclOption e
        let _ ← opt ws
        pure o) : P (List Opt)) = many (round e) from rfl, bind_ok h4]
      rfl
    rw [bind_ok (opt_ok this), After.finish (At.after h5)]
    rfl

end Acltk.AclText
