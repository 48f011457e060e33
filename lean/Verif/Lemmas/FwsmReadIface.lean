import Verif.Lemmas.FwsmReadTime
import Verif.Lemmas.PegInv
/-!
# Reading an interface block as written
-/
namespace Acltk.FwsmText
open Acltk Acltk.Peg Acltk.Lookup Acltk.AclText

variable {tr : Bool} {rest : Text} {g : Guard}

theorem toeol_read {d : List Char} (hd : '\n' ∉ d) (rest : Text) : toeol (d ++ '\n' :: rest) = .ok d ('\n' :: rest) := by
  apply pat_star
  · intro c hc; simp; rintro rfl; exact hd hc
  · intro c hc; simp at hc; subst hc; rfl

theorem nl_lf (rest : Text) : nl ('\n' :: rest) = .ok () rest := rfl

/-- What stands behind a word on its line. -/
theorem LineRest.eow {u : List Char} (h : LineRest u) (rest : Text) : EndOfWord (u ++ '\n' :: rest) := by
  obtain ⟨-, rfl | rfl | ⟨c, v, rfl, rfl | rfl⟩⟩ := h
  · exact ⟨rest, by simp⟩
  · exact ⟨rest, by simp⟩
  · exact ⟨v ++ '\n' :: rest, by simp⟩
  · exact ⟨v ++ '\n' :: rest, by simp⟩

theorem rest_of_line {v c r rest : List Char} (hc : '\n' ∉ c) (h : v ++ '\n' :: rest = c ++ r) :
    ∃ v', v = c ++ v' ∧ r = v' ++ '\n' :: rest := by
  induction c generalizing v with
  | nil => exact ⟨v, rfl, h.symm⟩
  | cons d c ih =>
    cases v with
    | nil => simp at h; exact absurd (by simp [← h.1]) hc
    | cons e v =>
      simp at h
      obtain ⟨rfl, h⟩ := h
      obtain ⟨v', rfl, h'⟩ := ih (fun hx => hc (by simp [hx])) h
      exact ⟨v', rfl, h'⟩

theorem tok_noRaise (k : String) (t : Text) (e : PyErr) : tok g k t ≠ .raise e := by
  unfold tok; split <;> simp

theorem pat_noRaise (x : Re) (t : Text) (e : PyErr) : pat x t ≠ .raise e := by
  unfold pat; split <;> simp

theorem ws_noRaise (t : Text) (e : PyErr) : ws t ≠ .raise e := by
  unfold ws
  rw [bind_apply]
  cases h : pat (.plus isWs) t with
  | ok => simp [pure_apply]
  | fail => simp
  | raise e' => exact absurd h (pat_noRaise _ _ _)

/-- The last real alternative takes any line. -/
theorem detail_any {v : List Char} (hv : '\n' ∉ v) (rest : Text) :
    (do
      let _ ← opt (do
        let _ ← tok g "no"
        ws)
      let _ ← toeol
      nl
      pure Ifc.Line.ignored : P Ifc.Line) (v ++ '\n' :: rest) = .ok .ignored rest := by
  have key : ∃ x v', '\n' ∉ v' ∧ opt (do
        let _ ← tok g "no"
        ws) (v ++ '\n' :: rest) = .ok x (v' ++ '\n' :: rest) := by
    have hl : InLine (opt (do
        let _ ← tok g "no"
        ws)) := InLine.opt (InLine.bind (inLine_tok g (by decide)) (fun _ => inLine_ws))
    cases hx : opt (do
        let _ ← tok g "no"
        ws) (v ++ '\n' :: rest) with
    | fail => unfold opt at hx; split at hx <;> cases hx
    | raise e =>
      exfalso
      unfold opt at hx
      rw [bind_apply] at hx
      cases ht : tok g "no" (v ++ '\n' :: rest) with
      | fail => rw [ht] at hx; cases hx
      | raise e => exact tok_noRaise _ _ _ ht
      | ok n r =>
        rw [ht] at hx
        simp only at hx
        cases hw : ws r with
        | fail => rw [hw] at hx; cases hx
        | raise e => exact ws_noRaise _ _ hw
        | ok u r' => rw [hw] at hx; cases hx
    | ok x r =>
      obtain ⟨c, hc, hn⟩ := hl _ _ _ hx
      obtain ⟨v', rfl, rfl⟩ := rest_of_line hn hc
      exact ⟨x, v', fun h => hv (by simp [h]), rfl⟩
  obtain ⟨x, v', hv', hk⟩ := key
  rw [bind_ok hk, bind_ok (toeol_read hv' rest), bind_ok (nl_lf rest)]
  rfl

/-- A line beginning with a keyword that is not the one looked for. -/
theorem addressKey_no (hg : GuardOk g) {w : String} (hw : Word w) {t : Text} (ht : EndOfWord t) {k : String}
    (hk : (k.toList.all (fun c => !isBlank c)) = true) (h : w ≠ k) : addressKey g k (w.toList ++ t) = .fail := by
  unfold addressKey
  exact kw_other hg (noBlank_of_decide hk) hw.noBlank ht h

theorem word_no_lf {w : String} (hw : Word w) : '\n' ∉ w.toList := fun h => by
  have := hw.2 _ h; simp at this

theorem blanks_no_lf {b : List Char} (hb : Blanks b) : '\n' ∉ b := fun h => by
  rcases hb _ h with h | h <;> cases h

/-- The line of words has no line feed inside. -/
theorem spaced_no_lf {ws : List String} {t : List Char} (h : Spaced ws t) (hw : ∀ w ∈ ws, Word w) : '\n' ∉ t := by
  induction h with
  | one w => exact word_no_lf (hw w (by simp))
  | cons w b ws t _ hb _ ih =>
    have h1 := word_no_lf (hw w (by simp))
    have h2 := blanks_no_lf hb
    have h3 := ih (fun v hv => hw v (by simp [hv]))
    simp only [List.mem_append, not_or]
    exact ⟨h1, h2, h3⟩

theorem line_lf {ws : List String} {l : List Char} (h : Line ws l) (hw : ∀ w ∈ ws, Word w) :
    ∃ v, '\n' ∉ v ∧ l = v ++ ['\n'] := by
  obtain ⟨t, b, n, hs, hb, hn, rfl⟩ := h
  have h1 := spaced_no_lf hs hw
  have h2 := blanks_no_lf hb
  rcases hn with rfl | rfl
  · exact ⟨t ++ b, by simp [h1, h2], by simp⟩
  · exact ⟨t ++ b ++ ['\r'], by simp [h1, h2], by simp⟩

theorem ip6_not_ip4_word {w : String} (hw : Word w) (h : ∀ c ∈ w.toList.head?, c.isDigit = false) (t : Text) :
    ip4 (w.toList ++ t) = .fail := by
  apply ip4_not_digit
  · intro c hc
    cases hx : w.toList with
    | nil => exact absurd hx hw.1
    | cons d l => rw [hx] at hc h; simp at hc; subst hc; exact h _ (by simp)
  · intro h'; exact hw.1 (by simp at h'; simp [h'.1])

theorem ifaceLine_read (hg : GuardOk g) {l : List Char} {v : Ifc.Line} (h : IfaceLine l v) (rest : Text) :
    interfaceDetail g (l ++ rest) = .ok v rest := by
  unfold interfaceDetail
  cases h with
  | description b d hne hb hd hh =>
    apply alts_ok
    simp only [List.append_assoc, List.cons_append, List.nil_append]
    rw [bind_ok (tok_self hg (by decide) (blanks_end hne hb)), bind_ok (ws_ok hne hb (by
      intro c hc
      cases d with
      | nil => simp at hc; subst hc; decide
      | cons e d => exact hh c (by simpa using hc))), bind_ok (toeol_read hd rest), bind_ok (nl_lf rest)]
    rfl
  | nameif w _ hw hl =>
    have hs := sta_of_line (rest := rest) hl
    obtain ⟨t1, s1, f1⟩ := kw_step hg hs (by decide) hw.word
    rw [alts_fail (kw_no hg hs (kwWord (by decide)) (by decide) (by decide) _)]
    apply alts_ok
    obtain ⟨t2, rfl, e2, s2⟩ := s1.word
    rw [f1, bind_ok (identifier_read hw e2), s2.finish, String.ofList_toList]
    rfl
  | ip a m s x y z _ hx ha hy hm hz hs' hl =>
    have hs := sta_of_line (rest := rest) hl
    rw [alts_fail (kw_no hg hs (kwWord (by decide)) (by decide) (by decide) _),
      alts_fail (kw_no hg hs (kwWord (by decide)) (by decide) (by decide) _)]
    apply alts_ok
    obtain ⟨t1, s1, f1⟩ := kw_step hg hs (by decide) (kwWord (by decide))
    obtain ⟨t2, rfl, e2, s2⟩ := s1.word
    have hk : addressKey g "ip" (l ++ rest) = .ok () t2 := by
      unfold addressKey; rw [f1, bind_ok (tok_self hg (by decide) e2)]; rfl
    obtain ⟨t3, h3, s3⟩ := s2.blanks (dotted_word hx ha)
    obtain ⟨t4, rfl, e4, s4⟩ := s3.word
    obtain ⟨t5, h5, s5⟩ := s4.blanks (dotted_word hy hm)
    obtain ⟨t6, rfl, e6, s6⟩ := s5.word
    obtain ⟨t7, h7, s7⟩ := s6.blanks (kwWord (by decide))
    obtain ⟨t8, s8, f8⟩ := kw_step hg s7 (by decide) (dotted_word hz hs')
    obtain ⟨t9, rfl, e9, s9⟩ := s8.word
    rw [bind_ok hk, bind_ok h3, bind_ok (ip4_read hx ha e4), bind_ok h5, bind_ok (ip4_read hy hm e6), bind_ok h7, f8,
      bind_ok (ip4_read hz hs' e9), s9.finish]
    have e1 : (⟨.v4, x⟩ : Addr).text = a.toList := by rw [ha, dotted_eq hx]; rfl
    have e2 : (⟨.v4, y⟩ : Addr).text = m.toList := by rw [hm, dotted_eq hy]; rfl
    rw [e1, e2, String.ofList_toList, String.ofList_toList]
    rfl
  | ip6 a m s x z w _ ha hm hw hz hl =>
    have hs := sta_of_line (rest := rest) hl
    have ww := v6Slash_word ha hw hm.2
    rw [alts_fail (kw_no hg hs (kwWord (by decide)) (by decide) (by decide) _),
      alts_fail (kw_no hg hs (kwWord (by decide)) (by decide) (by decide) _)]
    obtain ⟨t0, h0, e0, s0⟩ := hs.word
    rw [alts_fail (bind_fail (by rw [h0]; exact addressKey_no hg (kwWord (by decide)) e0 (by decide) (by decide)))]
    apply alts_ok
    obtain ⟨t1, s1, f1⟩ := kw_step hg hs (by decide) (kwWord (by decide))
    obtain ⟨t2, rfl, e2, s2⟩ := s1.word
    have hk : addressKey g "ipv6" (l ++ rest) = .ok () t2 := by
      unfold addressKey; rw [f1, bind_ok (tok_self hg (by decide) e2)]; rfl
    obtain ⟨t3, h3, s3⟩ := s2.blanks ww
    obtain ⟨t4, rfl, e4, s4⟩ := s3.word
    obtain ⟨t7, h7, s7⟩ := s4.blanks (kwWord (by decide))
    obtain ⟨t8, s8, f8⟩ := kw_step hg s7 (by decide) (v6_word hz)
    obtain ⟨t9, rfl, e9, s9⟩ := s8.word
    have ew : w.toList ++ t4 = a.toList ++ '/' :: (m.toList ++ t4) := by rw [hw]; simp
    rw [bind_ok hk, bind_ok h3, ew, bind_ok (ip6_text ha (by intro c hc; simp at hc; subst hc; decide)),
      bind_ok (show slashP ('/' :: (m.toList ++ t4)) = .ok () (m.toList ++ t4) from rfl),
      bind_ok (intP_digits hm.1 hm.2 e4), bind_ok h7, f8, bind_ok (ip6_text hz (endOfWord_not_hex e9)), s9.finish,
      String.ofList_toList]
    rfl
  | plainIp a m x y _ hx ha hy hm hl =>
    have hs := sta_of_line (rest := rest) hl
    rw [alts_fail (kw_no hg hs (kwWord (by decide)) (by decide) (by decide) _),
      alts_fail (kw_no hg hs (kwWord (by decide)) (by decide) (by decide) _)]
    obtain ⟨t0, h0, e0, s0⟩ := hs.word
    obtain ⟨t1, s1, f1⟩ := kw_step hg hs (by decide) (kwWord (by decide))
    obtain ⟨t2, rfl, e2, s2⟩ := s1.word
    have hk : addressKey g "ip" (l ++ rest) = .ok () t2 := by
      unfold addressKey; rw [f1, bind_ok (tok_self hg (by decide) e2)]; rfl
    obtain ⟨t3, h3, s3⟩ := s2.blanks (dotted_word hx ha)
    obtain ⟨t4, rfl, e4, s4⟩ := s3.word
    obtain ⟨t5, h5, s5⟩ := s4.blanks (dotted_word hy hm)
    obtain ⟨t6, rfl, e6, s6⟩ := s5.word
    rw [alts_fail (show _ = Res.fail from by
      rw [bind_ok hk, bind_ok h3, bind_ok (ip4_read hx ha e4), bind_ok h5, bind_ok (ip4_read hy hm e6)]
      obtain ⟨b, n, hb, -, hn, rfl⟩ := s6
      by_cases hbe : b = []
      · subst hbe
        apply bind_fail
        apply ws_fail
        rcases hn with rfl | rfl <;> (intro c hc; simp at hc; subst hc; decide)
      · rw [bind_ok (ws_ok (t := n ++ rest) hbe hb (by
          rcases hn with rfl | rfl <;> (intro c hc; simp at hc; subst hc; decide)))]
        apply bind_fail
        rcases hn with rfl | rfl <;> rfl),
      alts_fail (bind_fail (by rw [h0]; exact addressKey_no hg (kwWord (by decide)) e0 (by decide) (by decide)))]
    apply alts_ok
    obtain ⟨v, hv, rfl⟩ := line_lf hl (by
      intro w hw
      simp only [List.mem_cons, List.not_mem_nil, or_false] at hw
      rcases hw with rfl | rfl | rfl | rfl
      · exact kwWord (by decide)
      · exact kwWord (by decide)
      · exact dotted_word hx ha
      · exact dotted_word hy hm)
    rw [List.append_assoc]
    exact detail_any hv rest
  | plainIp6 a m x w _ ha hm hw hl =>
    have ww := v6Slash_word ha hw hm.2
    have hs := sta_of_line (rest := rest) hl
    rw [alts_fail (kw_no hg hs (kwWord (by decide)) (by decide) (by decide) _),
      alts_fail (kw_no hg hs (kwWord (by decide)) (by decide) (by decide) _)]
    obtain ⟨t0, h0, e0, s0⟩ := hs.word
    obtain ⟨t1, s1, f1⟩ := kw_step hg hs (by decide) (kwWord (by decide))
    obtain ⟨t2, rfl, e2, s2⟩ := s1.word
    have hk : addressKey g "ipv6" (l ++ rest) = .ok () t2 := by
      unfold addressKey; rw [f1, bind_ok (tok_self hg (by decide) e2)]; rfl
    obtain ⟨t3, h3, s3⟩ := s2.blanks ww
    obtain ⟨t4, rfl, e4, s6⟩ := s3.word
    have ew : w.toList ++ t4 = a ++ '/' :: (m ++ t4) := by rw [hw]; simp
    rw [alts_fail (bind_fail (by rw [h0]; exact addressKey_no hg (kwWord (by decide)) e0 (by decide) (by decide))),
      alts_fail (show _ = Res.fail from by
      rw [bind_ok hk, bind_ok h3, ew, bind_ok (ip6_text ha (by intro c hc; simp at hc; subst hc; decide)),
      bind_ok (show slashP ('/' :: (m ++ t4)) = .ok () (m ++ t4) from rfl),
      bind_ok (intP_digits hm.1 hm.2 e4)]
      obtain ⟨b, n, hb, -, hn, rfl⟩ := s6
      by_cases hbe : b = []
      · subst hbe
        apply bind_fail
        apply ws_fail
        rcases hn with rfl | rfl <;> (intro c hc; simp at hc; subst hc; decide)
      · rw [bind_ok (ws_ok (t := n ++ rest) hbe hb (by
          rcases hn with rfl | rfl <;> (intro c hc; simp at hc; subst hc; decide)))]
        apply bind_fail
        rcases hn with rfl | rfl <;> rfl)]
    apply alts_ok
    obtain ⟨v, hv, rfl⟩ := line_lf hl (by
      intro w' hw'
      simp only [List.mem_cons, List.not_mem_nil, or_false] at hw'
      rcases hw' with rfl | rfl | rfl
      · exact kwWord (by decide)
      · exact kwWord (by decide)
      · exact ww)
    rw [List.append_assoc]
    exact detail_any hv rest
  | otherAddress w b b' u ww hd hne hb hne' hb' hu =>
    have e1 : EndOfWord (b ++ ("address".toList ++ (b' ++ (w.toList ++ (u ++ '\n' :: rest))))) := blanks_end hne hb
    have e2 : EndOfWord (b' ++ (w.toList ++ (u ++ '\n' :: rest))) := blanks_end hne' hb'
    have et : "ip".toList ++ (b ++ ("address".toList ++ (b' ++ (w.toList ++ (u ++ ['\n']))))) ++ rest =
        "ip".toList ++ (b ++ ("address".toList ++ (b' ++ (w.toList ++ (u ++ '\n' :: rest))))) := by simp
    rw [et]
    have wi : Word "ip" := kwWord (by decide)
    rw [alts_fail (kw_other hg (noBlank_of_decide (by decide)) wi.noBlank e1 (by decide)),
      alts_fail (kw_other hg (noBlank_of_decide (by decide)) wi.noBlank e1 (by decide)),
      alts_fail (show _ = Res.fail from by
        rw [bind_ok (show addressKey g "ip" _ = .ok () _ from by
          unfold addressKey
          rw [bind_ok (tok_self hg (by decide) e1), bind_ok (ws_ok hne hb (word_head (kwWord (by decide)) _)),
            bind_ok (tok_self hg (by decide) e2)]; rfl), bind_ok (ws_ok hne' hb' (word_head ww _))]
        exact bind_fail (ip6_not_ip4_word ww hd _)),
      alts_fail (bind_fail (addressKey_no hg wi e1 (by decide) (by decide)))]
    apply alts_ok
    have := detail_any (g := g) (v := "ip".toList ++ (b ++ ("address".toList ++ (b' ++ (w.toList ++ u)))))
      (by
        have h1 := blanks_no_lf hb
        have h2 := blanks_no_lf hb'
        have h3 := word_no_lf ww
        have h4 := hu.1
        simp only [List.mem_append, not_or]
        exact ⟨by decide, h1, by decide, h2, h3, h4⟩) rest
    simpa using this
  | otherIp f w b u hf ww hne' hne hb hu =>
    have e1 : EndOfWord (b ++ (w.toList ++ (u ++ '\n' :: rest))) := blanks_end hne hb
    have e2 : EndOfWord (u ++ '\n' :: rest) := hu.eow rest
    have et : f.toList ++ (b ++ (w.toList ++ (u ++ ['\n']))) ++ rest =
        f.toList ++ (b ++ (w.toList ++ (u ++ '\n' :: rest))) := by simp
    rw [et]
    have wi : Word f := mem_word (by decide) hf
    have no : ∀ k : String, (k.toList.all (fun c => !isBlank c)) = true → ∀ {β : Type} (q : P β),
        (addressKey g k >>= fun _ => ws >>= fun _ => q) (f.toList ++ (b ++ (w.toList ++ (u ++ '\n' :: rest)))) = .fail := by
      intro k hk β q
      by_cases hfk : f = k
      · subst hfk
        unfold addressKey
        rw [bind_apply, bind_ok (tok_self hg hk e1), bind_ok (ws_ok hne hb (word_head ww _))]
        rcases (tok_word (k := "address") (noBlank_of_decide (by decide)) e2 hg.passes).2 hne' with h | ⟨c, v, h1, h2, h3⟩
        · rw [bind_fail h]
        · rw [bind_ok h2]
          simp only [pure_apply]
          exact ws_in_word ww.noBlank (by rw [h1]; simp)
      · exact bind_fail (addressKey_no hg wi e1 hk hfk)
    rw [alts_fail (kw_other hg (noBlank_of_decide (by decide)) wi.noBlank e1 (by rintro rfl; revert hf; decide)),
      alts_fail (kw_other hg (noBlank_of_decide (by decide)) wi.noBlank e1 (by rintro rfl; revert hf; decide)),
      alts_fail (no "ip" (by decide) _), alts_fail (no "ipv6" (by decide) _)]
    apply alts_ok
    have := detail_any (g := g) (v := f.toList ++ (b ++ (w.toList ++ u)))
      (by
        have h1 := blanks_no_lf hb
        have h2 := word_no_lf wi
        have h3 := word_no_lf ww
        have h4 := hu.1
        simp only [List.mem_append, not_or]
        exact ⟨h2, h1, h3, h4⟩) rest
    simpa using this
  | other w u ww hw hu =>
    have e1 : EndOfWord (u ++ '\n' :: rest) := hu.eow rest
    have et : w.toList ++ (u ++ ['\n']) ++ rest = w.toList ++ (u ++ '\n' :: rest) := by simp
    rw [et]
    simp only [List.mem_cons, List.not_mem_nil, or_false, not_or] at hw
    rw [alts_fail (kw_other hg (noBlank_of_decide (by decide)) ww.noBlank e1 hw.1),
      alts_fail (kw_other hg (noBlank_of_decide (by decide)) ww.noBlank e1 hw.2.1),
      alts_fail (bind_fail (addressKey_no hg ww e1 (by decide) hw.2.2.1)),
      alts_fail (bind_fail (addressKey_no hg ww e1 (by decide) hw.2.2.2))]
    apply alts_ok
    have := detail_any (g := g) (v := w.toList ++ u)
      (by
        have h3 := word_no_lf ww
        have h4 := hu.1
        simp only [List.mem_append, not_or]
        exact ⟨h3, h4⟩) rest
    simpa using this

theorem ifaceLines_read (hg : GuardOk g) {t : Text} {vs : List Ifc.Line} (h : IfaceLines t vs) (hr : NoSp rest) :
    indented (interfaceDetail g) (t ++ rest) = .ok vs rest := by
  unfold indented
  induction h with
  | nil => exact many_fail (bind_fail (sp_fail hr))
  | cons l t v vs hl _ ih =>
    rw [show (' ' :: (l ++ t)) ++ rest = ' ' :: (l ++ (t ++ rest)) from by simp]
    refine many_ok (r := t ++ rest) ?_ ?_ ih
    · rw [bind_ok (sp_cons _)]; exact ifaceLine_read hg hl _
    · simp; omega

theorem interface_read {s : St} (hg : GuardOk s.env.guard) {w : String} {l t : List Char} {vs : List Ifc.Line} {i : Ifc.Intf}
    (hw : UrlWord w) (hl : Bare ["interface", w] l) (ht : IfaceLines t vs) (hi : Ifc.interfaceOf w vs = .ok i)
    (hr : NoSp rest) :
    interface s (l ++ (t ++ rest)) = .ok (.iface i, { s with ifaces := match i.nameif with
        | some n => dSet (dSet s.ifaces i.alias i) n i
        | none => dSet s.ifaces i.alias i }) rest := by
  have hs := sta_of_bare (rest := t ++ rest) hl
  obtain ⟨t1, s1, f1⟩ := kw_step hg hs (by decide) hw.word
  obtain ⟨t2, rfl, e2, s2⟩ := s1.word
  unfold interface
  rw [f1, bind_ok (stringP_read hw e2), bind_ok s2.nl, bind_ok (ifaceLines_read hg ht hr), String.ofList_toList,
    bind_ok (act_ok hi _)]
  rfl

end Acltk.FwsmText
