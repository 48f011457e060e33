import Verif.Lemmas.FwsmReadObj
/-!
# Reading time ranges
-/
namespace Acltk.FwsmText
open Acltk Acltk.Lookup Acltk.Peg Acltk.AclText

variable {tr : Bool} {rest : Text} {g : Guard}

/-- The text does not go on with a digit. -/
def NoDigit (t : Text) : Prop := ∀ c ∈ t.head?, c.isDigit = false

theorem eow_noDigit {t : Text} (h : EndOfWord t) : NoDigit t := by
  obtain ⟨s, u, rfl, hs⟩ := endOfWord_not_digit h
  intro c hc; simp at hc; subst hc; exact hs

theorem twoDigits_read {a : List Char} (h : DigitText a) (hl : a.length ≤ 2) {t : Text} (ht : NoDigit t) :
    twoDigits (a ++ t) = .ok (digitValue a) t := by
  unfold twoDigits
  match a, h, hl with
  | [], h, _ => exact absurd rfl h.1
  | [c], h, _ =>
    have hc := h.2 c (by simp)
    have : pat (.seq (.cls Char.isDigit) (.optional (.cls Char.isDigit))) ([c] ++ t) = .ok [c] t := by
      apply pat_of_run (L := [])
      cases t with
      | nil => simp [Re.run, Re.optional, hc]
      | cons x t => simp [Re.run, Re.optional, hc, ht x (by simp)]
    rw [bind_ok this]
    rfl
  | [c, d], h, _ =>
    have hc := h.2 c (by simp)
    have hd := h.2 d (by simp)
    have : pat (.seq (.cls Char.isDigit) (.optional (.cls Char.isDigit))) ([c, d] ++ t) = .ok [c, d] t := by
      apply pat_of_run (L := [d :: t])
      simp [Re.run, Re.optional, hc, hd]
    rw [bind_ok this]
    rfl
  | _ :: _ :: _ :: _, _, hl => simp at hl

theorem fourDigits_read {a : List Char} (h : DigitText a) (hl : a.length = 4) (t : Text) :
    fourDigits (a ++ t) = .ok (digitValue a) t := by
  unfold fourDigits
  match a, h, hl with
  | [c, d, e, f], h, _ =>
    have hc := h.2 c (by simp)
    have hd := h.2 d (by simp)
    have he := h.2 e (by simp)
    have hf := h.2 f (by simp)
    have : pat (.seq (.cls Char.isDigit) (.seq (.cls Char.isDigit) (.seq (.cls Char.isDigit) (.cls Char.isDigit))))
        ([c, d, e, f] ++ t) = .ok [c, d, e, f] t := by
      apply pat_of_run (L := [])
      simp [Re.run, hc, hd, he, hf]
    rw [bind_ok this]
    rfl

theorem clock_read {w : String} {tm : Time} (h : TimeWord w tm) {t : Text} (ht : EndOfWord t) :
    clock (w.toList ++ t) = .ok tm t := by
  obtain ⟨a, b, hw, ha, hal, hb, hbl, rfl, -, -⟩ := h
  unfold clock
  have e : w.toList ++ t = a ++ (':' :: (b ++ t)) := by rw [hw]; simp
  rw [e, bind_ok (twoDigits_read ha hal (by intro c hc; simp at hc; subst hc; decide)),
    bind_ok (show colonP (':' :: (b ++ t)) = .ok () (b ++ t) from rfl), bind_ok (twoDigits_read hb hbl (eow_noDigit ht))]
  rfl

theorem time_read {w : String} {tm : Time} (h : TimeWord w tm) {t : Text} (ht : EndOfWord t) :
    time (w.toList ++ t) = .ok tm t := by
  unfold time
  rw [bind_ok (clock_read h ht)]
  obtain ⟨a, b, hw, ha, hal, hb, hbl, rfl, h1, h2⟩ := h
  exact act_ok (by unfold checkTime; rw [if_pos ⟨h1, h2⟩]) _

theorem TimeWord.word {w : String} {tm : Time} (h : TimeWord w tm) : Word w := by
  obtain ⟨a, b, hw, ha, -, hb, -, -, -, -⟩ := h
  have dg : ∀ c : Char, c.isDigit = true → c ∉ [' ', '\t', '\n', '\r'] := by
    intro c hc hb
    simp only [List.mem_cons, List.not_mem_nil, or_false] at hb
    rcases hb with rfl | rfl | rfl | rfl <;> revert hc <;> decide
  refine ⟨by rw [hw]; simp, ?_⟩
  intro c hc
  rw [hw] at hc
  rcases List.mem_append.1 hc with h | h
  · exact dg c (ha.2 c h)
  · rcases List.mem_cons.1 h with rfl | h
    · decide
    · exact dg c (hb.2 c h)

theorem find_weekdays : ∀ d ∈ weekdays, weekdays.find? (mayMatch d) = some d := by decide +kernel
theorem find_months : ∀ d ∈ months, months.find? (mayMatch d) = some d := by decide +kernel

theorem weekday_word {d : String} (h : d ∈ weekdays) : Word d := mem_word (by decide +kernel) h

theorem DateWords.words {ws : List String} {d : Date} (h : DateWords ws d) : ∀ w ∈ ws, Word w := by
  cases h with
  | mk tw dw mw yw t m k ht hd hdl hm hy hyl =>
    intro x hx
    simp only [List.mem_cons, List.not_mem_nil, or_false] at hx
    rcases hx with rfl | rfl | rfl | rfl
    · exact ht.word
    · exact digitText_word hd
    · exact mem_word (l := months) (by decide +kernel) (List.mem_of_getElem? hm)
    · exact digitText_word hy

theorem idxOf_months : ∀ m mw, months[m]? = some mw → months.idxOf mw = m ∧ m < 12 := by
  intro m mw h
  have hl : m < 12 := by
    have := (List.getElem?_eq_some_iff.1 h).1
    exact this
  refine ⟨?_, hl⟩
  have h12 : m = 0 ∨ m = 1 ∨ m = 2 ∨ m = 3 ∨ m = 4 ∨ m = 5 ∨ m = 6 ∨ m = 7 ∨ m = 8 ∨ m = 9 ∨ m = 10 ∨ m = 11 := by omega
  rcases h12 with rfl | rfl | rfl | rfl | rfl | rfl | rfl | rfl | rfl | rfl | rfl | rfl <;>
    (cases h; decide +kernel)

theorem leap_iff (y : Nat) : leap y = true ↔ Words.LeapYear y := by
  unfold leap Words.LeapYear
  simp only [Bool.and_eq_true, beq_iff_eq, Bool.or_eq_true, bne_iff_ne, ne_eq]
  omega

theorem monthLength_eq {y m k : Nat} (h : Words.MonthLength y m k) : k = daysIn y m := by
  cases h with
  | long m h =>
    simp only [List.mem_cons, List.not_mem_nil, or_false] at h
    rcases h with rfl | rfl | rfl | rfl | rfl | rfl | rfl <;> rfl
  | short m h =>
    simp only [List.mem_cons, List.not_mem_nil, or_false] at h
    rcases h with rfl | rfl | rfl | rfl <;> rfl
  | february h =>
    have : leap y = false := by
      cases hl : leap y with
      | false => rfl
      | true => exact absurd ((leap_iff y).1 hl) h
    simp [daysIn, this]
  | leap h => simp [daysIn, (leap_iff y).2 h]

theorem digitValue_four {a : List Char} (h : DigitText a) (hl : a.length = 4) : digitValue a ≤ 9999 := by
  match a, h, hl with
  | [c, d, e, f], h, _ =>
    have b : ∀ c : Char, c.isDigit = true → c.toNat - 48 ≤ 9 := by
      intro c hc
      rcases digit_cases hc with rfl | rfl | rfl | rfl | rfl | rfl | rfl | rfl | rfl | rfl <;> decide
    have hc := b c (h.2 c (by simp))
    have hd := b d (h.2 d (by simp))
    have he := b e (h.2 e (by simp))
    have hf := b f (h.2 f (by simp))
    simp only [digitValue, Nat.ofDigitChars, List.foldl_cons, List.foldl_nil]
    simp only [show ('0' : Char).toNat = 48 from rfl]
    omega

theorem timedate_read (hg : GuardOk g) {dw : List String} {d : Date} (h : DateWords dw d) {more : List String} {t : Text}
    (hs : Sta tr rest (dw ++ more) t) : ∃ t', timedate g t = .ok d t' ∧ Aft tr rest more t' := by
  cases h with
  | mk tw dw mw yw tm m k ht hd hdl hm hy hyl hy1 hk hd1 hdk =>
    have hdm := Nat.le_trans hdk (Nat.le_of_eq (monthLength_eq hk))
    have hmm := List.mem_of_getElem? hm
    obtain ⟨hidx, hm12⟩ := idxOf_months m mw hm
    obtain ⟨t1, rfl, e1, s1⟩ := hs.word
    obtain ⟨t2, h2, s2⟩ := Aft.blanks (wl := mw :: yw :: more) s1 (digitText_word hd)
    obtain ⟨t3, rfl, e3, s3⟩ := s2.word
    obtain ⟨t4, h4, s4⟩ := s3.blanks (mem_word (l := months) (by decide +kernel) hmm)
    obtain ⟨t5, rfl, e5, s5⟩ := s4.word
    obtain ⟨t6, h6, s6⟩ := s5.blanks (digitText_word hy)
    obtain ⟨t7, rfl, e7, s7⟩ := s6.word
    refine ⟨t7, ?_, s7⟩
    unfold timedate
    rw [bind_ok (clock_read ht e1), bind_ok h2, bind_ok (twoDigits_read hd hdl (eow_noDigit e3)), bind_ok h4,
      bind_ok (oneOf_word hg e5 (kwNoBlank (by decide +kernel)) (find_months mw hmm)), bind_ok h6,
      bind_ok (fourDigits_read hy hyl t7)]
    obtain ⟨a, b, -, -, -, -, -, rfl, h1, h2⟩ := ht
    apply act_ok
    unfold checkDate
    rw [hidx]
    have h9 := digitValue_four hy hyl
    rw [if_pos ⟨hy1, h9, by show 1 ≤ m + 1; omega, by show m + 1 ≤ 12; omega, hd1, hdm, h1, h2⟩]

theorem BoundWords.words {key : String} (hk : Word key) {ws : List String} {v : Option Date} (h : BoundWords key ws v) :
    ∀ w ∈ ws, Word w := by
  cases h with
  | none => simp
  | some ws d h =>
    intro w hw
    rcases List.mem_cons.1 hw with rfl | hw
    · exact hk
    · exact h.words w hw

theorem BoundWords.head {key : String} {ws : List String} {v : Option Date} (h : BoundWords key ws v) :
    ∀ w ∈ ws.head?, w = key := by
  cases h <;> simp

theorem bound_read (hg : GuardOk g) {key : String} (hk : (!key.toList.isEmpty && key.toList.all (fun c => !isBlank c)) = true)
    {bw more : List String} {v : Option Date} (h : BoundWords key bw v)
    (hm : ∀ w ∈ more.head?, mayMatch w key = false) (hmore : ∀ w ∈ more, Word w) {t : Text}
    (ha : Aft tr rest (bw ++ more) t) :
    ∃ t', opt (ws >>= fun _ => tok g key >>= fun _ => ws >>= fun _ => timedate g) t = .ok v t' ∧ Aft tr rest more t' := by
  have hkw := word_of_decide hk
  have hk1 : (key.toList.all (fun c => !isBlank c)) = true := by simp at hk; simpa using hk.2
  cases h with
  | none =>
    have ha : Aft tr rest more t := ha
    refine ⟨t, ?_, ha⟩
    cases more with
    | nil =>
      exact opt_end ha (fun t' ht' => bind_fail (tok_at_end hg hk1 (by rintro rfl; simp at hk) ht'))
    | cons w more =>
      obtain ⟨t2, h2, s2⟩ := ha.blanks (hmore w (by simp))
      apply opt_fail
      rw [bind_ok h2]
      exact bind_fail (tok_no' hg s2 hk1 (hm w (by simp)))
  | some dw d hd =>
    have ha : Aft tr rest (key :: (dw ++ more)) t := ha
    obtain ⟨t2, h2, s2⟩ := ha.blanks hkw
    obtain ⟨w, wl, hwl⟩ : ∃ w wl, dw = w :: wl := by cases hd; exact ⟨_, _, rfl⟩
    have hww : Word w := hd.words w (by rw [hwl]; simp)
    rw [hwl] at s2
    obtain ⟨t3, s3, f3⟩ := kw_step hg s2 hk1 hww
    obtain ⟨t4, h4, s4⟩ := timedate_read hg hd (more := more) (by rw [hwl]; exact s3)
    refine ⟨t4, ?_, s4⟩
    apply opt_ok
    rw [bind_ok h2, f3, h4]

theorem timeObject_read (hg : GuardOk g) {ow : List String} {v : TimeObj} (h : TimeMemberW ow v) {t : Text}
    (hs : Sta false rest ow t) : timeRangeObject g t = .ok (some v) rest := by
  have wT : Word "to" := kwWord (by decide)
  have wA : Word "absolute" := kwWord (by decide)
  unfold timeRangeObject
  cases h with
  | day d tw uw tm um hd ht hu =>
    obtain ⟨t1, s1, f1⟩ := kw_step hg hs (by decide) (weekday_word hd)
    obtain ⟨t2, rfl, e2, s2⟩ := s1.word
    obtain ⟨t3, h3, s3⟩ := s2.blanks ht.word
    obtain ⟨t4, rfl, e4, s4⟩ := s3.word
    obtain ⟨t5, h5, s5⟩ := s4.blanks wT
    obtain ⟨t6, s6, f6⟩ := kw_step hg s5 (by decide) hu.word
    obtain ⟨t7, rfl, e7, s7⟩ := s6.word
    apply alts_ok
    rw [f1, bind_ok (many1_ok (oneOf_word hg e2 (kwNoBlank (by decide +kernel)) (find_weekdays d hd))
      (many_fail (oneOf_at_end hg (by decide +kernel) (by decide +kernel) e2))), bind_ok h3, bind_ok (time_read ht e4),
      bind_ok h5, f6, bind_ok (opt_fail (bind_fail (oneOf_first_no hg (by decide +kernel) ?_ e7))),
      bind_ok (time_read hu e7), bind_ok s7.nl]
    · rfl
    · obtain ⟨a, b, hw, ha, -⟩ := hu
      intro k hk
      apply noMatch_head (p := Char.isDigit)
      · rw [hw]
        cases a with
        | nil => exact absurd rfl ha.1
        | cons c a => simp [ha.2 c (by simp)]
      · revert hk; revert k; decide +kernel
  | days d c tw uw tm um hd hc ht hu =>
    obtain ⟨t1, s1, f1⟩ := kw_step hg hs (by decide) (weekday_word hd)
    obtain ⟨t2, rfl, e2, s2⟩ := s1.word
    obtain ⟨t3, h3, s3⟩ := s2.blanks ht.word
    obtain ⟨t4, rfl, e4, s4⟩ := s3.word
    obtain ⟨t5, h5, s5⟩ := s4.blanks wT
    obtain ⟨t6, s6, f6⟩ := kw_step hg s5 (by decide) (weekday_word hc)
    obtain ⟨t7, rfl, e7, s7⟩ := s6.word
    obtain ⟨t8, h8, s8⟩ := s7.blanks hu.word
    obtain ⟨t9, rfl, e9, s9⟩ := s8.word
    apply alts_ok
    rw [f1, bind_ok (many1_ok (oneOf_word hg e2 (kwNoBlank (by decide +kernel)) (find_weekdays d hd))
      (many_fail (oneOf_at_end hg (by decide +kernel) (by decide +kernel) e2))), bind_ok h3, bind_ok (time_read ht e4),
      bind_ok h5, f6, bind_ok (opt_ok (a := c) (r := uw.toList ++ t9) (by
        rw [bind_ok (oneOf_word hg e7 (kwNoBlank (by decide +kernel)) (find_weekdays c hc)), bind_ok h8]; rfl)),
      bind_ok (time_read hu e9), bind_ok s9.nl]
    rfl
  | period d tw uw tm um hd ht hu =>
    obtain ⟨t1, s1, f1⟩ := kw_step hg hs (by decide) (mem_word (by decide +kernel) hd)
    obtain ⟨t2, rfl, e2, s2⟩ := s1.word
    obtain ⟨t3, h3, s3⟩ := s2.blanks ht.word
    obtain ⟨t4, rfl, e4, s4⟩ := s3.word
    obtain ⟨t5, h5, s5⟩ := s4.blanks wT
    obtain ⟨t6, s6, f6⟩ := kw_step hg s5 (by decide) hu.word
    obtain ⟨t7, rfl, e7, s7⟩ := s6.word
    rw [alts_fail (by
      rw [f1]
      apply bind_fail
      apply many1_fail
      refine oneOf_first_no hg (by decide +kernel) ?_ e2
      simp only [List.mem_cons, List.not_mem_nil, or_false] at hd
      rcases hd with rfl | rfl | rfl <;> decide +kernel)]
    apply alts_ok
    rw [f1, bind_ok (oneOf_word hg e2 (kwNoBlank (by decide +kernel)) (by
      simp only [List.mem_cons, List.not_mem_nil, or_false] at hd
      rcases hd with rfl | rfl | rfl <;> decide +kernel)), bind_ok h3, bind_ok (time_read ht e4),
      bind_ok h5, f6, bind_ok (time_read hu e7), bind_ok s7.nl]
    rfl
  | absolute sw ew s e h1 h2 =>
    have wE : Word "end" := kwWord (by decide)
    rw [alts_fail (kw_no hg hs wA (by decide) (by decide) _), alts_fail (kw_no hg hs wA (by decide) (by decide) _)]
    obtain ⟨t1, rfl, e1, s1⟩ := hs.word
    obtain ⟨t2, b2, s2⟩ := bound_read hg (by decide) h1 (more := ew) (by
      intro w hw; rw [h2.head w hw]; decide) (h2.words wE) s1
    obtain ⟨t3, b3, s3⟩ := bound_read hg (by decide) h2 (more := []) (by simp) (by simp) (by simpa using s2)
    apply alts_ok
    rw [bind_ok (tok_self hg (by decide) e1), bind_ok b2, bind_ok b3, bind_ok s3.nl]
    rfl

theorem timeRange_read {s : St} (he : s.env.WF) {w : String} {l t : Text} {vs : List TimeObj} (hw : UrlWord w)
    (hl : Bare ["time-range", w] l) (hm : Members TimeMemberW Bare t vs) (hr : NoSp rest) :
    timeRange s (l ++ t ++ rest) = .ok (.timeRange s.next w vs,
      { s with env := { s.env with timeRanges := dSet s.env.timeRanges w s.next }, next := s.next + 1 }) rest := by
  have hg := he.guardOk
  rw [List.append_assoc]
  obtain ⟨t1, s1, f1⟩ := kw_step hg (sta_of_bare hl (rest := t ++ rest)) (by decide) hw.word
  obtain ⟨t2, rfl, e2, s2⟩ := s1.word
  unfold timeRange
  rw [f1, bind_ok (stringP_read hw e2), bind_ok s2.nl,
    bind_ok (indented_read (p := timeRangeObject s.env.guard) (fun ws v l u ⟨x, hx, h1⟩ h2 => by
      subst hx; exact timeObject_read hg h1 (sta_of_bare h2)) (members_some hm) hr),
    bind_ok (act_ok (addAll_some vs) _), String.ofList_toList]
  rfl

end Acltk.FwsmText
