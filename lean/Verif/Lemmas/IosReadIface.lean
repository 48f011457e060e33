import Verif.Lemmas.IosReadGroup
/-!
# Reading an IOS interface block as written
-/
namespace Acltk.IosText
open Acltk Acltk.Lookup Acltk.Peg Acltk.AclText
open Acltk.FwsmText (St Bare LineRest Aft Sta ip4_read kwWord tok_self v6Slash_word toeol_read nl_lf line_lf word_no_lf
  blanks_no_lf sta_of_line sta_of_bare kw_step kw_no ip6_not_ip4_word NoSp sp_fail sp_cons indented
  opt_end chr)

variable {tr : Bool} {rest : Text} {g : Guard}

/-! ## two keywords -/

theorem twoWords_no (hg : GuardOk g) {a w : String} (hw : Word w) {t : Text} (ht : EndOfWord t)
    (ha : (a.toList.all (fun c => !isBlank c)) = true) (h : w ≠ a) (b : String) {β : Type} (f : Unit → P β) :
    (twoWords g a b >>= f) (w.toList ++ t) = .fail := by
  unfold twoWords
  exact bind_fail (kw_other hg (noBlank_of_decide ha) hw.noBlank ht h)

/-- The first keyword is there, the second is not. -/
theorem twoWords_no2 (hg : GuardOk g) {a b w : String} (ha : (a.toList.all (fun c => !isBlank c)) = true)
    (hb : (b.toList.all (fun c => !isBlank c)) = true) (hw : Word w) {s t : Text} (hne : s ≠ []) (hs : Blanks s)
    (ht : EndOfWord t) (h : w ≠ b) {β : Type} (f : Unit → P β) :
    (twoWords g a b >>= fun _ => ws >>= f) (a.toList ++ (s ++ (w.toList ++ t))) = .fail := by
  unfold twoWords
  rw [bind_apply, bind_ok (tok_self hg ha (blanks_end hne hs)), bind_ok (ws_ok hne hs (word_head hw _))]
  rcases (tok_word (k := b) (noBlank_of_decide hb) ht hg.passes).2 h with h | ⟨c, v, h1, h2, -⟩
  · rw [bind_fail h]
  · rw [bind_ok h2]
    simp only [pure_apply]
    exact ws_in_word hw.noBlank (by rw [h1]; simp)

theorem twoWords_sta_no (hg : GuardOk g) {a w : String} {wl : List String} {t : Text} (hs : Sta tr rest (w :: wl) t) (hw : Word w)
    (ha : (a.toList.all (fun c => !isBlank c)) = true) (h : w ≠ a) (b : String) {β : Type} (f : Unit → P β) :
    (twoWords g a b >>= f) t = .fail := by
  obtain ⟨t1, rfl, h1, -⟩ := hs.word
  exact twoWords_no hg hw h1 ha h b f

theorem twoWords_sta_no2 (hg : GuardOk g) {a b w : String} {wl : List String} {t : Text} (hs : Sta tr rest (a :: w :: wl) t)
    (hw : Word w) (ha : (a.toList.all (fun c => !isBlank c)) = true) (hb : (b.toList.all (fun c => !isBlank c)) = true)
    (h : w ≠ b) {β : Type} (f : Unit → P β) : (twoWords g a b >>= fun _ => ws >>= f) t = .fail := by
  obtain ⟨t1, rfl, s, t2, hne, hbl, rfl, h3⟩ := hs
  exact twoWords_no2 hg ha hb hw hne hbl h3.eow h f

theorem twoWords_sta (hg : GuardOk g) {a b w : String} {wl : List String} {t : Text} (hs : Sta tr rest (a :: b :: w :: wl) t)
    (hw : Word w) (wb : Word b) (ha : (a.toList.all (fun c => !isBlank c)) = true) (hb : (b.toList.all (fun c => !isBlank c)) = true) :
    ∃ t', Sta tr rest (w :: wl) t' ∧ ∀ {β : Type} (f : Unit → P β), (twoWords g a b >>= fun _ => ws >>= f) t = f () t' := by
  obtain ⟨t1, s1, f1⟩ := kw_step hg hs ha wb
  obtain ⟨t2, rfl, e2, s2⟩ := s1.word
  obtain ⟨t3, h3, s3⟩ := s2.blanks hw
  refine ⟨t3, s3, fun f => ?_⟩
  unfold twoWords
  rw [bind_apply, f1, bind_ok (tok_self hg hb e2)]
  simp only [pure_apply]
  rw [bind_ok h3]

/-- A name and a direction. -/
theorem nameDir_read (hg : GuardOk g) {n d : String} (hn : IdWord n) (hd : d ∈ ["in", "out"]) {t : Text}
    (hs : Sta tr rest [n, d] t) : ∃ t', Aft tr rest [] t' ∧ nameDir g t = .ok (n, d) t' := by
  obtain ⟨t1, rfl, e1, s1⟩ := hs.word
  obtain ⟨t2, h2, s2⟩ := s1.blanks (mem_word (by decide) hd)
  obtain ⟨t3, rfl, e3, s3⟩ := s2.word
  refine ⟨t3, s3, ?_⟩
  unfold nameDir
  rw [bind_ok (objName_read hn e1), bind_ok h2, bind_ok (oneOf_word hg e3 (kwNoBlank (by decide)) ((by decide +kernel : ∀ d ∈ ["in", "out"], ["in", "out"].find? (mayMatch d) = some d) d hd)), String.ofList_toList]
  rfl

/-! ## VLANs -/

theorem intP_stop {m : List Char} (hm : DigitText m) {t : Text} (ht : ∀ c ∈ t.head?, c.isDigit = false) :
    intP (m ++ t) = .ok m t := pat_plus hm.1 hm.2 ht

theorem chr_ok (c : Char) (t : Text) : chr c (c :: t) = .ok () t := by simp [chr]

theorem chr_fail {c : Char} {t : Text} (h : ∀ d ∈ t.head?, d ≠ c) : chr c t = .fail := by
  cases t with
  | nil => rfl
  | cons d t => simp [chr, h d (by simp)]

theorem vlan_read {a : List Char} {v : Ifc.Vlan} (h : VlanText a v) {t : Text}
    (ht : ∀ c ∈ t.head?, c.isDigit = false ∧ c ≠ '-') : vlan (a ++ t) = .ok v t := by
  unfold vlan
  cases h with
  | one _ ha =>
    rw [alt_fail (by
      rw [bind_ok (intP_stop ha (fun c hc => (ht c hc).1))]
      exact bind_fail (chr_fail (fun c hc => (ht c hc).2))), bind_ok (intP_stop ha (fun c hc => (ht c hc).1))]
    rfl
  | range a b ha hb =>
    apply alt_ok
    rw [List.append_assoc, List.cons_append, bind_ok (intP_stop ha (by intro c hc; simp at hc; subst hc; decide)),
      bind_ok (chr_ok _ _), bind_ok (intP_stop hb (fun c hc => (ht c hc).1))]
    rfl

theorem vlanText_ne {a : List Char} {v : Ifc.Vlan} (h : VlanText a v) : ∃ c l, a = c :: l ∧ c.isDigit = true := by
  have key : ∀ {a : List Char}, DigitText a → ∃ c l, a = c :: l ∧ c.isDigit = true := by
    intro a ha
    cases a with
    | nil => exact absurd rfl ha.1
    | cons c l => exact ⟨c, l, rfl, ha.2 c (by simp)⟩
  cases h with
  | one _ ha => exact key ha
  | range a b ha hb =>
    obtain ⟨c, l, rfl, h⟩ := key ha
    exact ⟨c, l ++ '-' :: b, rfl, h⟩

theorem vlansText_ne {a : List Char} {v : List Ifc.Vlan} (h : VlansText a v) : ∃ c l, a = c :: l ∧ c.isDigit = true := by
  cases h with
  | one _ _ h => exact vlanText_ne h
  | cons t u v l h _ =>
    obtain ⟨c, l, rfl, h'⟩ := vlanText_ne h
    exact ⟨c, l ++ ',' :: u, rfl, h'⟩

theorem vlanList_read {a : List Char} {l : List Ifc.Vlan} (h : VlansText a l) {t : Text}
    (ht : ∀ c ∈ t.head?, c.isDigit = false ∧ c ≠ '-' ∧ c ≠ ',') : vlanList (a ++ t) = .ok l t := by
  have ht' : ∀ c ∈ t.head?, c.isDigit = false ∧ c ≠ '-' := fun c hc => ⟨(ht c hc).1, (ht c hc).2.1⟩
  have hc : ∀ u, ∀ c ∈ (',' :: u : Text).head?, c.isDigit = false ∧ c ≠ '-' := by
    intro u c hc; simp at hc; subst hc; decide
  unfold vlanList
  cases h with
  | one _ v h =>
    rw [bind_ok (vlan_read h ht'), bind_ok (many_fail (bind_fail (chr_fail (fun c hc => (ht c hc).2.2))))]
    rfl
  | cons t1 u v l h hu =>
    rw [List.append_assoc, List.cons_append, bind_ok (vlan_read h (hc _))]
    have key : ∀ {u : List Char} {l : List Ifc.Vlan}, VlansText u l →
        many (do
          chr ','
          vlan) (',' :: (u ++ t)) = .ok l t := by
      intro u l hu
      induction hu with
      | one u v h =>
        refine many_ok (r := t) (by rw [bind_ok (chr_ok _ _)]; exact vlan_read h ht') (by simp; omega)
          (many_fail (bind_fail (chr_fail (fun c hc => (ht c hc).2.2))))
      | cons t1 u v l h _ ih =>
        refine many_ok (r := ',' :: (u ++ t)) ?_ (by simp; omega) ih
        rw [bind_ok (chr_ok _ _), List.append_assoc, List.cons_append]
        exact vlan_read h (hc _)
    rw [bind_ok (key hu)]
    rfl

/-! ## the lines -/

/-- Any line is read over. -/
theorem detail_any {v : List Char} (hv : '\n' ∉ v) (rest : Text) :
    (do
      let _ ← toeol
      nl
      pure Ifc.Line.ignored : P Ifc.Line) (v ++ '\n' :: rest) = .ok .ignored rest := by
  rw [bind_ok (toeol_read hv rest), bind_ok (nl_lf rest)]
  rfl

theorem lineRest_stop {u : List Char} (hu : LineRest u) (rest : Text) :
    ∀ c ∈ (u ++ '\n' :: rest).head?, c.isDigit = false ∧ c ≠ '-' ∧ c ≠ ',' := by
  obtain ⟨-, rfl | rfl | ⟨c, v, rfl, rfl | rfl⟩⟩ := hu <;> (intro c hc; simp at hc; subst hc; decide)

/-- The words in front of a line. -/
theorem spaced2 {a b : String} {h : List Char} (hs : Spaced [a, b] h) :
    ∃ c, c ≠ [] ∧ Blanks c ∧ h = a.toList ++ (c ++ b.toList) := by
  cases hs with
  | cons _ c _ _ h1 h2 hs =>
    cases hs with
    | one => exact ⟨c, h1, h2, rfl⟩
    | cons _ _ _ _ _ _ hs => cases hs

theorem spaced_cons {a b : String} {wl : List String} {h : List Char} (hs : Spaced (a :: b :: wl) h) :
    ∃ c h', c ≠ [] ∧ Blanks c ∧ Spaced (b :: wl) h' ∧ h = a.toList ++ (c ++ h') := by
  cases hs with
  | cons _ c _ t h1 h2 hs => exact ⟨c, t, h1, h2, hs, rfl⟩

theorem spaced_one {a : String} {h : List Char} (hs : Spaced [a] h) : h = a.toList := by
  cases hs with
  | one => rfl
  | cons _ _ _ _ _ _ hs => cases hs

/-- Behind `secondary` or `link-local`, or at the end of the line. -/
theorem more_read (hg : GuardOk g) {k : String} (hk : (!k.toList.isEmpty && k.toList.all (fun c => !isBlank c)) = true)
    {more : List String} (hm : more = [] ∨ more = [k]) {t : Text} (h : Aft true rest more t) {β : Type} (p : P β) :
    (opt (ws >>= fun _ => tok g k) >>= fun _ => opt ws >>= fun _ => nl >>= fun _ => p) t = p rest := by
  have hk' : (k.toList.all (fun c => !isBlank c)) = true := by simp only [Bool.and_eq_true] at hk; exact hk.2
  rcases hm with rfl | rfl
  · rw [bind_ok (opt_end h (fun t' ht => by
      have := tok_no hg (w := "") (noBlank_of_decide hk') ht (by
        have hne := hk
        simp only [Bool.and_eq_true, Bool.not_eq_true', List.isEmpty_eq_false_iff] at hne
        simp only [mayMatch, Bool.or_eq_false_iff, Bool.and_eq_false_iff]
        refine ⟨?_, Or.inl ?_⟩
        · simp; rintro rfl; exact hne.1 rfl
        · cases hx : k.toList with
          | nil => exact absurd hx hne.1
          | cons => simp)
      simpa using this))]
    exact h.finish p
  · obtain ⟨t1, h1, s1⟩ := h.blanks (kwWord hk)
    obtain ⟨t2, rfl, e2, s2⟩ := s1.word
    rw [bind_ok (opt_ok (by rw [bind_ok h1]; exact tok_self hg hk' e2))]
    exact s2.finish p

theorem ifaceLine_read (hg : GuardOk g) {l : List Char} {v : Ifc.Line} (h : IfaceLine l v) (rest : Text) :
    interfaceDetail g (l ++ rest) = .ok v rest := by
  unfold interfaceDetail
  cases h with
  | description b d hne hb hd hh =>
    apply alts_ok
    simp only [List.append_assoc, List.cons_append, List.nil_append]
    rw [bind_ok (tok_self hg (by decide) (blanks_end hne hb)), bind_ok (ws_ok hne hb (by
      intro c hc
      cases d with
      | nil => simp at hc; subst hc; decide
      | cons e d => exact hh c (by simpa using hc))), bind_ok (toeol_read hd rest), bind_ok (nl_lf rest)]
    rfl
  | ip a m more x y _ hx ha hy hm hmore hl =>
    have hs := sta_of_line (rest := rest) hl
    rw [alts_fail (kw_no hg hs (kwWord (by decide)) (by decide) (by decide) _)]
    apply alts_ok
    obtain ⟨t1, s1, f1⟩ := twoWords_sta hg hs (dotted_word hx ha) (kwWord (by decide)) (by decide) (by decide)
    obtain ⟨t4, rfl, e4, s4⟩ := s1.word
    obtain ⟨t5, h5, s5⟩ := s4.blanks (dotted_word hy hm)
    obtain ⟨t6, rfl, e6, s6⟩ := s5.word
    rw [f1, bind_ok (ip4_read hx ha e4), bind_ok h5, bind_ok (ip4_read hy hm e6)]
    refine (more_read hg (by decide) hmore s6 _).trans ?_
    have e1 : (⟨.v4, x⟩ : Addr).text = a.toList := by rw [ha, dotted_eq hx]; rfl
    have e2 : (⟨.v4, y⟩ : Addr).text = m.toList := by rw [hm, dotted_eq hy]; rfl
    rw [e1, e2, String.ofList_toList, String.ofList_toList]
    rfl
  | accessGroup n d _ hn hd hl =>
    have hs := sta_of_line (rest := rest) hl
    rw [alts_fail (kw_no hg hs (kwWord (by decide)) (by decide) (by decide) _),
      alts_fail (twoWords_sta_no2 hg hs (kwWord (by decide)) (by decide) (by decide) (by decide) _)]
    apply alts_ok
    obtain ⟨t1, s1, f1⟩ := twoWords_sta hg hs hn.word (kwWord (by decide)) (by decide) (by decide)
    obtain ⟨t2, s2, h2⟩ := nameDir_read hg hn hd s1
    rw [f1, bind_ok h2]
    exact s2.finish _
  | ip6 a m w more x _ ha hm hw hmore hl =>
    have hs := sta_of_line (rest := rest) hl
    have ww := v6Slash_word ha hw hm.2
    rw [alts_fail (kw_no hg hs (kwWord (by decide)) (by decide) (by decide) _),
      alts_fail (twoWords_sta_no hg hs (kwWord (by decide)) (by decide) (by decide) _ _),
      alts_fail (twoWords_sta_no hg hs (kwWord (by decide)) (by decide) (by decide) _ _)]
    apply alts_ok
    obtain ⟨t1, s1, f1⟩ := twoWords_sta hg hs ww (kwWord (by decide)) (by decide) (by decide)
    obtain ⟨t4, rfl, e4, s4⟩ := s1.word
    have ew : w.toList ++ t4 = a.toList ++ '/' :: (m.toList ++ t4) := by rw [hw]; simp
    rw [f1, ew, bind_ok (ip6_text ha (by intro c hc; simp at hc; subst hc; decide)),
      bind_ok (opt_ok (a := m.toList) (r := t4) (by
        rw [bind_ok (show slashP ('/' :: (m.toList ++ t4)) = .ok () (m.toList ++ t4) from rfl)]
        exact intP_digits hm.1 hm.2 e4))]
    refine (more_read hg (by decide) hmore s4 _).trans ?_
    show Res.ok (Ifc.Line.ipv6 _ (some (String.ofList m.toList))) rest = _
    rw [String.ofList_toList]
  | ip6Host a more x _ ha hmore hl =>
    have hs := sta_of_line (rest := rest) hl
    rw [alts_fail (kw_no hg hs (kwWord (by decide)) (by decide) (by decide) _),
      alts_fail (twoWords_sta_no hg hs (kwWord (by decide)) (by decide) (by decide) _ _),
      alts_fail (twoWords_sta_no hg hs (kwWord (by decide)) (by decide) (by decide) _ _)]
    apply alts_ok
    obtain ⟨t1, s1, f1⟩ := twoWords_sta hg hs (v6_word ha) (kwWord (by decide)) (by decide) (by decide)
    obtain ⟨t4, rfl, e4, s4⟩ := s1.word
    rw [f1, bind_ok (ip6_text ha (endOfWord_not_hex e4)), bind_ok (opt_fail (bind_fail (by
      obtain ⟨u, rfl | rfl | rfl | rfl⟩ := e4 <;> rfl)))]
    exact more_read hg (by decide) hmore s4 _
  | trafficFilter n d _ hn hd hl =>
    have hs := sta_of_line (rest := rest) hl
    rw [alts_fail (kw_no hg hs (kwWord (by decide)) (by decide) (by decide) _),
      alts_fail (twoWords_sta_no hg hs (kwWord (by decide)) (by decide) (by decide) _ _),
      alts_fail (twoWords_sta_no hg hs (kwWord (by decide)) (by decide) (by decide) _ _),
      alts_fail (twoWords_sta_no2 hg hs (kwWord (by decide)) (by decide) (by decide) (by decide) _)]
    apply alts_ok
    obtain ⟨t1, s1, f1⟩ := twoWords_sta hg hs hn.word (kwWord (by decide)) (by decide) (by decide)
    obtain ⟨t2, s2, h2⟩ := nameDir_read hg hn hd s1
    rw [f1, bind_ok h2]
    exact s2.finish _
  | switchMode m h u hm hs hu =>
    obtain ⟨b1, h1, n1, hb1, hs2, rfl⟩ := spaced_cons hs
    obtain ⟨b2, n2, hb2, rfl⟩ := spaced2 hs2
    simp only [List.append_assoc, List.cons_append, List.nil_append]
    have ws1 : Word "switchport" := kwWord (by decide)
    have e1 := blanks_end (t := "mode".toList ++ (b2 ++ (m.toList ++ (u ++ '\n' :: rest)))) n1 hb1
    rw [alts_fail (kw_other hg (noBlank_of_decide (by decide)) ws1.noBlank e1 (by decide)),
      alts_fail (twoWords_no hg ws1 e1 (by decide) (by decide) _ _), alts_fail (twoWords_no hg ws1 e1 (by decide) (by decide) _ _),
      alts_fail (twoWords_no hg ws1 e1 (by decide) (by decide) _ _), alts_fail (twoWords_no hg ws1 e1 (by decide) (by decide) _ _)]
    apply alts_ok
    have hc : switchport g ("mode".toList ++ (b2 ++ (m.toList ++ (u ++ '\n' :: rest)))) = .ok (.mode m) ('\n' :: rest) := by
      unfold switchport
      apply alt_ok
      rw [bind_ok (tok_self hg (by decide) (blanks_end n2 hb2)), bind_ok (ws_ok n2 hb2 (word_head (mem_word (by decide) hm) _)),
        bind_ok (oneOf_word hg (hu.eow rest) (kwNoBlank (by decide))
          ((by decide +kernel : ∀ d ∈ ["access", "trunk"], ["access", "trunk"].find? (mayMatch d) = some d) m hm)),
        bind_ok (toeol_read hu.1 rest)]
      rfl
    rw [bind_ok (tok_self hg (by decide) e1), bind_ok (ws_ok n1 hb1 (word_head (kwWord (by decide)) _)), bind_ok hc,
      bind_ok (opt_fail (show ws ('\n' :: rest) = .fail from rfl)), bind_ok (nl_lf rest)]
    rfl
  | trunkSet h b v u l hs hne hb hv hu =>
    obtain ⟨b1, h1, n1, hb1, hs2, rfl⟩ := spaced_cons hs
    obtain ⟨b2, h2, n2, hb2, hs3, rfl⟩ := spaced_cons hs2
    obtain ⟨b3, n3, hb3, rfl⟩ := spaced2 hs3
    simp only [List.append_assoc, List.cons_append, List.nil_append]
    have ws1 : Word "switchport" := kwWord (by decide)
    obtain ⟨c, v', rfl, hc⟩ := vlansText_ne hv
    have e1 := blanks_end (t := "trunk".toList ++ (b2 ++ ("allowed".toList ++ (b3 ++ ("vlan".toList ++ (b ++ (c :: v' ++ (u ++ '\n' :: rest)))))))) n1 hb1
    rw [alts_fail (kw_other hg (noBlank_of_decide (by decide)) ws1.noBlank e1 (by decide)),
      alts_fail (twoWords_no hg ws1 e1 (by decide) (by decide) _ _), alts_fail (twoWords_no hg ws1 e1 (by decide) (by decide) _ _),
      alts_fail (twoWords_no hg ws1 e1 (by decide) (by decide) _ _), alts_fail (twoWords_no hg ws1 e1 (by decide) (by decide) _ _)]
    apply alts_ok
    have hd : c ≠ ' ' ∧ c ≠ '\t' ∧ c ≠ 'a' := by
      refine ⟨?_, ?_, ?_⟩ <;> (rintro rfl; revert hc; decide)
    have hc' : switchport g ("trunk".toList ++ (b2 ++ ("allowed".toList ++ (b3 ++ ("vlan".toList ++ (b ++ (c :: v' ++ (u ++ '\n' :: rest)))))))) =
        .ok (.trunkSet l) ('\n' :: rest) := by
      unfold switchport
      rw [alt_fail (kw_other hg (noBlank_of_decide (by decide)) (kwWord (k := "trunk") (by decide)).noBlank (blanks_end n2 hb2) (by decide)),
        bind_ok (tok_self hg (by decide) (blanks_end n2 hb2)), bind_ok (ws_ok n2 hb2 (word_head (kwWord (by decide)) _)),
        bind_ok (tok_self hg (by decide) (blanks_end n3 hb3)), bind_ok (ws_ok n3 hb3 (word_head (kwWord (by decide)) _)),
        bind_ok (tok_self hg (by decide) (blanks_end hne hb)), bind_ok (ws_ok hne hb (by
          intro d hd'; simp at hd'; subst hd'; exact ⟨hd.1, hd.2.1⟩)),
        bind_ok (show alt _ _ _ = .ok (Ifc.Switch.trunkSet l) (u ++ '\n' :: rest) from by
          have hk : tok g "add" (c :: v' ++ (u ++ '\n' :: rest)) = .fail :=
            FwsmText.tok_char (by intro d hd'; simp at hd'; subst hd'; exact Ne.symm hd.2.2) (by decide)
          refine (alt_fail (bind_fail hk)).trans ?_
          rw [bind_ok (vlanList_read hv (lineRest_stop hu rest))]
          rfl),
        bind_ok (toeol_read hu.1 rest)]
      rfl
    rw [bind_ok (tok_self hg (by decide) e1), bind_ok (ws_ok n1 hb1 (word_head (kwWord (by decide)) _)), bind_ok hc',
      bind_ok (opt_fail (show ws ('\n' :: rest) = .fail from rfl)), bind_ok (nl_lf rest)]
    rfl
  | trunkAdd h b v u l hs hne hb hv hu =>
    obtain ⟨b1, h1, n1, hb1, hs2, rfl⟩ := spaced_cons hs
    obtain ⟨b2, h2, n2, hb2, hs3, rfl⟩ := spaced_cons hs2
    obtain ⟨b3, h3, n3, hb3, hs4, rfl⟩ := spaced_cons hs3
    obtain ⟨b4, n4, hb4, rfl⟩ := spaced2 hs4
    simp only [List.append_assoc, List.cons_append, List.nil_append]
    have ws1 : Word "switchport" := kwWord (by decide)
    obtain ⟨c, v', rfl, hc⟩ := vlansText_ne hv
    have e1 := blanks_end (t := "trunk".toList ++ (b2 ++ ("allowed".toList ++ (b3 ++ ("vlan".toList ++ (b4 ++ ("add".toList ++ (b ++ (c :: v' ++ (u ++ '\n' :: rest)))))))))) n1 hb1
    rw [alts_fail (kw_other hg (noBlank_of_decide (by decide)) ws1.noBlank e1 (by decide)),
      alts_fail (twoWords_no hg ws1 e1 (by decide) (by decide) _ _), alts_fail (twoWords_no hg ws1 e1 (by decide) (by decide) _ _),
      alts_fail (twoWords_no hg ws1 e1 (by decide) (by decide) _ _), alts_fail (twoWords_no hg ws1 e1 (by decide) (by decide) _ _)]
    apply alts_ok
    have hd : c ≠ ' ' ∧ c ≠ '\t' := by
      refine ⟨?_, ?_⟩ <;> (rintro rfl; revert hc; decide)
    have hc' : switchport g ("trunk".toList ++ (b2 ++ ("allowed".toList ++ (b3 ++ ("vlan".toList ++ (b4 ++ ("add".toList ++ (b ++ (c :: v' ++ (u ++ '\n' :: rest)))))))))) =
        .ok (.trunkAdd l) ('\n' :: rest) := by
      unfold switchport
      rw [alt_fail (kw_other hg (noBlank_of_decide (by decide)) (kwWord (k := "trunk") (by decide)).noBlank (blanks_end n2 hb2) (by decide)),
        bind_ok (tok_self hg (by decide) (blanks_end n2 hb2)), bind_ok (ws_ok n2 hb2 (word_head (kwWord (by decide)) _)),
        bind_ok (tok_self hg (by decide) (blanks_end n3 hb3)), bind_ok (ws_ok n3 hb3 (word_head (kwWord (by decide)) _)),
        bind_ok (tok_self hg (by decide) (blanks_end n4 hb4)), bind_ok (ws_ok n4 hb4 (word_head (kwWord (by decide)) _)),
        bind_ok (alt_ok (a := Ifc.Switch.trunkAdd l) (r := u ++ '\n' :: rest) (by
          rw [bind_ok (tok_self hg (by decide) (blanks_end hne hb)), bind_ok (ws_ok hne hb (by
            intro d hd'; simp at hd'; subst hd'; exact hd)), bind_ok (vlanList_read hv (lineRest_stop hu rest))]
          rfl)),
        bind_ok (toeol_read hu.1 rest)]
      rfl
    rw [bind_ok (tok_self hg (by decide) e1), bind_ok (ws_ok n1 hb1 (word_head (kwWord (by decide)) _)), bind_ok hc',
      bind_ok (opt_fail (show ws ('\n' :: rest) = .fail from rfl)), bind_ok (nl_lf rest)]
    rfl
  | otherAddress w b b' u ww hd hne hb hne' hb' hu =>
    have e1 : EndOfWord (b ++ ("address".toList ++ (b' ++ (w.toList ++ (u ++ '\n' :: rest))))) := blanks_end hne hb
    have e2 : EndOfWord (b' ++ (w.toList ++ (u ++ '\n' :: rest))) := blanks_end hne' hb'
    have et : "ip".toList ++ (b ++ ("address".toList ++ (b' ++ (w.toList ++ (u ++ ['\n']))))) ++ rest =
        "ip".toList ++ (b ++ ("address".toList ++ (b' ++ (w.toList ++ (u ++ '\n' :: rest))))) := by simp
    rw [et]
    have wi : Word "ip" := kwWord (by decide)
    have wa : Word "address" := kwWord (by decide)
    rw [alts_fail (kw_other hg (noBlank_of_decide (by decide)) wi.noBlank e1 (by decide)),
      alts_fail (show _ = Res.fail from by
        rw [bind_ok (show twoWords g "ip" "address" _ = .ok () _ from by
          unfold twoWords
          rw [bind_ok (tok_self hg (by decide) e1), bind_ok (ws_ok hne hb (word_head wa _)),
            bind_ok (tok_self hg (by decide) e2)]; rfl), bind_ok (ws_ok hne' hb' (word_head ww _))]
        exact bind_fail (ip6_not_ip4_word ww hd _)),
      alts_fail (twoWords_no2 hg (by decide) (by decide) wa hne hb e2 (by decide) _),
      alts_fail (twoWords_no hg wi e1 (by decide) (by decide) _ _), alts_fail (twoWords_no hg wi e1 (by decide) (by decide) _ _),
      alts_fail (kw_other hg (noBlank_of_decide (by decide)) wi.noBlank e1 (by decide))]
    apply alts_ok
    have := detail_any (v := "ip".toList ++ (b ++ ("address".toList ++ (b' ++ (w.toList ++ u)))))
      (by
        have h1 := blanks_no_lf hb
        have h2 := blanks_no_lf hb'
        have h3 := word_no_lf ww
        have h4 := hu.1
        simp only [List.mem_append, not_or]
        exact ⟨by decide, h1, by decide, h2, h3, h4⟩) rest
    simpa using this
  | otherIp f w b u hf ww hno hne hb hu =>
    have e1 : EndOfWord (b ++ (w.toList ++ (u ++ '\n' :: rest))) := blanks_end hne hb
    have e2 : EndOfWord (u ++ '\n' :: rest) := hu.eow rest
    have et : f.toList ++ (b ++ (w.toList ++ (u ++ ['\n']))) ++ rest =
        f.toList ++ (b ++ (w.toList ++ (u ++ '\n' :: rest))) := by simp
    rw [et]
    have wi : Word f := mem_word (by decide) hf
    simp only [List.mem_cons, List.not_mem_nil, or_false, not_or] at hno
    have no : ∀ a k : String, (a.toList.all (fun c => !isBlank c)) = true → (k.toList.all (fun c => !isBlank c)) = true → w ≠ k →
        ∀ {β : Type} (q : Unit → P β),
        (twoWords g a k >>= fun _ => ws >>= q) (f.toList ++ (b ++ (w.toList ++ (u ++ '\n' :: rest)))) = .fail := by
      intro a k ha hk hwk β q
      by_cases hfk : f = a
      · subst hfk
        exact twoWords_no2 hg ha hk ww hne hb e2 hwk q
      · exact twoWords_no hg wi e1 ha hfk _ _
    rw [alts_fail (kw_other hg (noBlank_of_decide (by decide)) wi.noBlank e1 (by rintro rfl; revert hf; decide)),
      alts_fail (no "ip" "address" (by decide) (by decide) hno.1 _), alts_fail (no "ip" "access-group" (by decide) (by decide) hno.2.1 _),
      alts_fail (no "ipv6" "address" (by decide) (by decide) hno.1 _), alts_fail (no "ipv6" "traffic-filter" (by decide) (by decide) hno.2.2 _),
      alts_fail (kw_other hg (noBlank_of_decide (by decide)) wi.noBlank e1 (by rintro rfl; revert hf; decide))]
    apply alts_ok
    have := detail_any (v := f.toList ++ (b ++ (w.toList ++ u)))
      (by
        have h1 := blanks_no_lf hb
        have h2 := word_no_lf wi
        have h3 := word_no_lf ww
        have h4 := hu.1
        simp only [List.mem_append, not_or]
        exact ⟨h2, h1, h3, h4⟩) rest
    simpa using this
  | otherSwitch w b u ww hno hne hb hu =>
    have e1 : EndOfWord (b ++ (w.toList ++ (u ++ '\n' :: rest))) := blanks_end hne hb
    have e2 : EndOfWord (u ++ '\n' :: rest) := hu.eow rest
    have et : "switchport".toList ++ (b ++ (w.toList ++ (u ++ ['\n']))) ++ rest =
        "switchport".toList ++ (b ++ (w.toList ++ (u ++ '\n' :: rest))) := by simp
    rw [et]
    have wi : Word "switchport" := kwWord (by decide)
    simp only [List.mem_cons, List.not_mem_nil, or_false, not_or] at hno
    rw [alts_fail (kw_other hg (noBlank_of_decide (by decide)) wi.noBlank e1 (by decide)),
      alts_fail (twoWords_no hg wi e1 (by decide) (by decide) _ _), alts_fail (twoWords_no hg wi e1 (by decide) (by decide) _ _),
      alts_fail (twoWords_no hg wi e1 (by decide) (by decide) _ _), alts_fail (twoWords_no hg wi e1 (by decide) (by decide) _ _),
      alts_fail (show _ = Res.fail from by
        rw [bind_ok (tok_self hg (by decide) e1), bind_ok (ws_ok hne hb (word_head ww _))]
        apply bind_fail
        unfold switchport
        rw [alt_fail (kw_other hg (noBlank_of_decide (by decide)) ww.noBlank e2 hno.1)]
        exact kw_other hg (noBlank_of_decide (by decide)) ww.noBlank e2 hno.2)]
    apply alts_ok
    have := detail_any (v := "switchport".toList ++ (b ++ (w.toList ++ u)))
      (by
        have h1 := blanks_no_lf hb
        have h3 := word_no_lf ww
        have h4 := hu.1
        simp only [List.mem_append, not_or]
        exact ⟨by decide, h1, h3, h4⟩) rest
    simpa using this
  | other w u ww hw hu =>
    have e1 : EndOfWord (u ++ '\n' :: rest) := hu.eow rest
    have et : w.toList ++ (u ++ ['\n']) ++ rest = w.toList ++ (u ++ '\n' :: rest) := by simp
    rw [et]
    simp only [List.mem_cons, List.not_mem_nil, or_false, not_or] at hw
    rw [alts_fail (kw_other hg (noBlank_of_decide (by decide)) ww.noBlank e1 hw.1),
      alts_fail (twoWords_no hg ww e1 (by decide) hw.2.1 _ _), alts_fail (twoWords_no hg ww e1 (by decide) hw.2.1 _ _),
      alts_fail (twoWords_no hg ww e1 (by decide) hw.2.2.1 _ _), alts_fail (twoWords_no hg ww e1 (by decide) hw.2.2.1 _ _),
      alts_fail (kw_other hg (noBlank_of_decide (by decide)) ww.noBlank e1 hw.2.2.2)]
    apply alts_ok
    have := detail_any (v := w.toList ++ u)
      (by
        have h3 := word_no_lf ww
        have h4 := hu.1
        simp only [List.mem_append, not_or]
        exact ⟨h3, h4⟩) rest
    simpa using this

/-! ## the block -/

theorem ifaceLines_read (hg : GuardOk g) {t : Text} {vs : List Ifc.Line} (h : IfaceLines t vs) (hr : NoSp rest) :
    indented (interfaceDetail g) (t ++ rest) = .ok vs rest := by
  unfold indented
  induction h with
  | nil => exact many_fail (bind_fail (sp_fail hr))
  | cons l t v vs hl _ ih =>
    rw [show (' ' :: (l ++ t)) ++ rest = ' ' :: (l ++ (t ++ rest)) from by simp]
    refine many_ok (r := t ++ rest) ?_ ?_ ih
    · rw [bind_ok (sp_cons _)]; exact ifaceLine_read hg hl _
    · simp; omega

theorem ifaceLine_nameif {l : List Char} {v : Ifc.Line} (h : IfaceLine l v) : ∀ n, v ≠ .nameif n := by
  cases h <;> (intro n hn; cases hn)

theorem ifaceLines_nameif {t : List Char} {vs : List Ifc.Line} (h : IfaceLines t vs) : ∀ v ∈ vs, ∀ n, v ≠ .nameif n := by
  induction h with
  | nil => simp
  | cons l t v vs hl _ ih =>
    intro x hx
    rcases List.mem_cons.1 hx with rfl | hx
    · exact ifaceLine_nameif hl
    · exact ih x hx

/-- A line that is no `nameif` leaves name and alias alone. -/
theorem detailStep_keeps {s s' : Ifc.Intf} {v : Ifc.Line} (hv : ∀ n, v ≠ .nameif n) (h : Ifc.detailStep s v.detail = .ok s') :
    s'.alias = s.alias ∧ s'.nameif = s.nameif := by
  have addr : ∀ {x : Py (String × String)}, Ifc.addAddr s x = .ok s' → s'.alias = s.alias ∧ s'.nameif = s.nameif := by
    intro x hx
    unfold Ifc.addAddr at hx
    split at hx
    · cases hx
    · split at hx <;> cases hx
      exact ⟨rfl, rfl⟩
  have grp : ∀ {k : String} {x : Py (String × String)}, Ifc.addGroup s k x = .ok s' → s'.alias = s.alias ∧ s'.nameif = s.nameif := by
    intro k x hx
    unfold Ifc.addGroup at hx
    split at hx <;> cases hx
    exact ⟨rfl, rfl⟩
  cases v with
  | ignored => cases h; exact ⟨rfl, rfl⟩
  | nameif n => exact absurd rfl (hv n)
  | description d => cases h; exact ⟨rfl, rfl⟩
  | ip a m => simp [Ifc.detailStep, Ifc.Line.detail, Ifc.index] at h; exact addr h
  | ipAccessGroup n d => simp [Ifc.detailStep, Ifc.Line.detail, Ifc.index] at h; exact grp h
  | ipv6 a p => cases p <;> (simp [Ifc.detailStep, Ifc.Line.detail, Ifc.index] at h; exact addr h)
  | ipv6Filter n d => simp [Ifc.detailStep, Ifc.Line.detail, Ifc.index] at h; exact grp h
  | switch c =>
    have h : Ifc.switchStep s c = .ok s' := h
    unfold Ifc.switchStep at h
    cases c with
    | mode m => cases h; exact ⟨rfl, rfl⟩
    | trunkSet l => cases h; exact ⟨rfl, rfl⟩
    | trunkAdd l =>
      simp only at h
      split at h <;> cases h
      exact ⟨rfl, rfl⟩

theorem interfaceOf_alias {w : String} {vs : List Ifc.Line} {i : Ifc.Intf} (hv : ∀ v ∈ vs, ∀ n, v ≠ .nameif n)
    (h : Ifc.interfaceOf w vs = .ok i) : i.alias = w ∧ i.nameif = none := by
  have key : ∀ (vs : List Ifc.Line) (s i : Ifc.Intf), (∀ v ∈ vs, ∀ n, v ≠ .nameif n) →
      Ifc.detailLoop s (vs.map Ifc.Line.detail) = .ok i → i.alias = s.alias ∧ i.nameif = s.nameif := by
    intro vs
    induction vs with
    | nil => intro s i _ h; cases h; exact ⟨rfl, rfl⟩
    | cons v vs ih =>
      intro s i hv h
      rw [List.map_cons, Ifc.detailLoop] at h
      split at h
      · cases h
      · rename_i s' hs
        have h1 := detailStep_keeps (hv v (by simp)) hs
        have h2 := ih s' i (fun x hx => hv x (by simp [hx])) h
        exact ⟨h2.1.trans h1.1, h2.2.trans h1.2⟩
  exact key vs _ i hv h

theorem interface_read {s : St} (hg : GuardOk s.env.guard) {w : String} {l t : List Char} {vs : List Ifc.Line} {i : Ifc.Intf}
    (hw : UrlWord w) (hl : Bare ["interface", w] l) (ht : IfaceLines t vs) (hi : Ifc.interfaceOf w vs = .ok i)
    (hr : NoSp rest) :
    interface s (l ++ (t ++ rest)) = .ok (.base (.iface i), { s with ifaces := dSet s.ifaces w i }) rest := by
  have hs := sta_of_bare (rest := t ++ rest) hl
  obtain ⟨t1, s1, f1⟩ := kw_step hg hs (by decide) hw.word
  obtain ⟨t2, rfl, e2, s2⟩ := s1.word
  obtain ⟨ha, hn⟩ := interfaceOf_alias (ifaceLines_nameif ht) hi
  unfold interface
  rw [f1, bind_ok (stringP_read hw e2), bind_ok s2.nl, bind_ok (ifaceLines_read hg ht hr), String.ofList_toList,
    bind_ok (act_ok hi _), ha, hn]
  rfl

end Acltk.IosText
