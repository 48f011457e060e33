import Verif.Lemmas.FwsmRead
/-!
# Reading the members of port, service, ICMP and protocol groups
-/
namespace Acltk.FwsmText
open Acltk Acltk.Lookup Acltk.Peg Acltk.AclText

variable {tr : Bool} {rest : Text} {g : Guard}

/-! ## port groups -/

theorem portMember_first {e : Env} {ws : List String} {v : PortMember} (hm : PortMemberW e ws v) :
    ∃ w wl, ws = w :: wl ∧ mayMatch w "description" = false := by
  cases hm <;> exact ⟨_, _, rfl, by decide +kernel⟩

theorem portMember_read {e : Env} (he : e.WF) {ws : List String} {v : PortMember} (hm : PortMemberW e ws v) {t : Text}
    (hs : Sta false rest ws t) : portMember e t = .ok (some v) rest := by
  have hg := he.guardOk
  unfold portMember
  have we : Word "eq" := kwWord (by decide)
  have wr : Word "range" := kwWord (by decide)
  have wg : Word "group-object" := kwWord (by decide)
  cases hm with
  | eq w hw =>
    obtain ⟨t1, s1, f1⟩ := kw_step hg hs (by decide) we
    obtain ⟨t2, s2, f2⟩ := kw_step hg s1 (by decide) hw.word
    obtain ⟨t3, rfl, e3, s3⟩ := s2.word
    apply alts_ok
    rw [f1, f2, bind_ok (port_read hg hw e3), bind_ok s3.nl]
    rfl
  | range a b ha hb hlt =>
    obtain ⟨t1, s1, f1⟩ := kw_step hg hs (by decide) wr
    obtain ⟨t2, s2, f2⟩ := kw_step hg s1 (by decide) ha.word
    obtain ⟨t3, rfl, e3, s3⟩ := s2.word
    obtain ⟨t4, h4, s4⟩ := s3.blanks hb.word
    obtain ⟨t5, rfl, e5, s5⟩ := s4.word
    rw [alts_fail (by rw [f1]; exact kw_no hg s1 wr (by decide) (by decide) _)]
    apply alts_ok
    rw [f1, f2, bind_ok (port_read hg ha e3), bind_ok h4, bind_ok (port_read hg hb e5), bind_ok s5.nl,
      bind_ok (act_ok (mkPortRange_ok ha hb hlt) _)]
    rfl
  | group w o hk =>
    obtain ⟨t1, s1, f1⟩ := kw_step hg hs (by decide) (known_word he.portGroups hk)
    obtain ⟨t3, h3, s3⟩ := refer_end hg he.portGroups hk s1
    rw [alts_fail (kw_no hg hs wg (by decide) (by decide) _), alts_fail (kw_no hg hs wg (by decide) (by decide) _)]
    apply alts_ok
    rw [f1, bind_ok h3, bind_ok s3.nl]
    rfl

/-! ## services -/

theorem OpWords.words {ws : List String} {v : PortVal} (h : OpWords ws v) : ∀ w ∈ ws, Word w := by
  cases h with
  | op o w ho hw =>
    intro x hx
    simp only [List.mem_cons, List.not_mem_nil, or_false] at hx
    rcases hx with rfl | rfl
    · exact mem_word (by decide +kernel) ho
    · exact hw.word
  | range a b ha hb _ =>
    intro x hx
    simp only [List.mem_cons, List.not_mem_nil, or_false] at hx
    rcases hx with rfl | rfl | rfl
    · exact word_of_decide (by decide +kernel)
    · exact ha.word
    · exact hb.word

theorem serviceOp_read (hg : GuardOk g) {ow : List String} {v : PortVal} (h : OpWords ow v) {more : List String} {t : Text}
    (hs : Starts rest (ow ++ more) t) : ∃ t', serviceOp g t = .ok v t' ∧ After rest more t' := by
  have hw := h.words
  unfold serviceOp
  cases h with
  | op o w ho hp =>
    obtain ⟨t1, rfl, ht⟩ := hs
    have ht : After rest (w :: more) t1 := ht
    obtain ⟨t2, h2, t3, rfl, h3⟩ := ht.blanks hp.word
    refine ⟨t3, ?_, h3⟩
    apply alt_ok
    rw [bind_ok (oneOf_word hg ht.endOfWord (kwNoBlank (by decide +kernel)) (by
      simp only [List.mem_cons, List.not_mem_nil, or_false] at ho
      rcases ho with rfl | rfl | rfl | rfl <;> decide +kernel)), bind_ok h2, bind_ok (port_read hg hp h3.endOfWord)]
    rfl
  | range a b ha hb hlt =>
    obtain ⟨t1, rfl, ht⟩ := hs
    have ht : After rest (a :: b :: more) t1 := ht
    obtain ⟨t2, h2, t3, rfl, h3⟩ := ht.blanks ha.word
    obtain ⟨t4, h4, t5, rfl, h5⟩ := h3.blanks hb.word
    refine ⟨t5, ?_, h5⟩
    rw [alt_fail (kws_other hg (kwNoBlank (by decide +kernel)) (hw "range" (by simp)).noBlank ht.endOfWord (by decide))]
    rw [bind_ok (tok_self hg (by decide) ht.endOfWord), bind_ok h2, bind_ok (port_read hg ha h3.endOfWord), bind_ok h4,
      bind_ok (port_read hg hb h5.endOfWord), bind_ok (act_ok (mkPortRange_ok ha hb hlt) _)]
    rfl

theorem SideWords.words {key : String} (hk : Word key) {ws : List String} {v : Option PortVal} (h : SideWords key ws v) :
    ∀ w ∈ ws, Word w := by
  cases h with
  | none => simp
  | some ws v h =>
    intro w hw
    rcases List.mem_cons.1 hw with rfl | hw
    · exact hk
    · exact h.words w hw

theorem opt_ws_at {wl : List String} (hw : ∀ w ∈ wl, Word w) {t : Text} (h : After rest wl t) :
    ∃ o t', opt ws t = .ok o t' ∧ At rest wl t' := by
  rcases After.skip hw h with ⟨rfl, h1, h2⟩ | ⟨t', h1, h2, -⟩
  · exact ⟨_, t, opt_fail h1, h2⟩
  · exact ⟨_, t', opt_ok h1, h2⟩

theorem tok_at_no (hg : GuardOk g) {key : String} (hk : (key.toList.all (fun c => !isBlank c)) = true) (hne : key ≠ "")
    {wl : List String} (hm : ∀ w ∈ wl.head?, mayMatch w key = false) {t : Text} (h : At rest wl t) :
    tok g key t = .fail := by
  cases wl with
  | nil => exact tok_at_end hg hk hne h.after.endOfWord
  | cons w wl =>
    obtain ⟨t1, rfl, h1⟩ := h
    exact tok_no hg (noBlank_of_decide hk) h1.endOfWord (hm w (by simp))

theorem side_read (hg : GuardOk g) {key : String} (hk : (!key.toList.isEmpty && key.toList.all (fun c => !isBlank c)) = true)
    {sw more : List String} {v : Option PortVal} (h : SideWords key sw v)
    (hm : ∀ w ∈ more.head?, mayMatch w key = false) (hmore : ∀ w ∈ more, Word w) {t : Text} (ha : At rest (sw ++ more) t) :
    ∃ t' o t'', serviceSide g key t = .ok v t' ∧ opt ws t' = .ok o t'' ∧ At rest more t'' := by
  have hkw := word_of_decide hk
  have hk1 : (key.toList.all (fun c => !isBlank c)) = true := by simp at hk; simpa using hk.2
  unfold serviceSide
  cases h with
  | none =>
    have ha : At rest more t := ha
    refine ⟨t, none, t, ?_, opt_fail (At.noWs hmore ha), ha⟩
    rw [alt_fail (bind_fail (tok_at_no hg hk1 (by rintro rfl; simp at hk) hm ha))]
    rfl
  | some ow v ho =>
    obtain ⟨t1, rfl, h1⟩ := ha
    have h1 : After rest (ow ++ more) t1 := h1
    cases ow with
    | nil => cases ho
    | cons w ow =>
      obtain ⟨t2, h2, s2⟩ := After.blanks (w := w) (wl := ow ++ more) h1 (ho.words w (by simp))
      obtain ⟨t3, h3, s3⟩ := serviceOp_read hg ho (more := more) s2
      obtain ⟨o, t4, h4, s4⟩ := opt_ws_at hmore s3
      refine ⟨t3, o, t4, ?_, h4, s4⟩
      apply alt_ok
      rw [bind_ok (tok_self hg hk1 h1.endOfWord), bind_ok h2, bind_ok h3]
      rfl

theorem SideWords.head {key : String} {ws : List String} {v : Option PortVal} (h : SideWords key ws v) :
    ∀ w ∈ ws.head?, w = key := by
  cases h <;> simp

theorem SvcPortWords.first {ws : List String} {s : Svc} (h : SvcPortWords ws s) :
    ∃ w wl, ws = w :: wl ∧ w ∈ ["tcp-udp", "tcp", "udp"] := by
  cases h with
  | mk p sw dw a b hp => exact ⟨p, _, rfl, hp⟩

theorem svcPorts_read (hg : GuardOk g) {ws : List String} {s : Svc} (h : SvcPortWords ws s) {t : Text}
    (hs : Starts rest ws t) : ∃ t', svcPorts g t = .ok s t' ∧ nl t' = .ok () rest := by
  have wS : Word "source" := kwWord (by decide)
  have wD : Word "destination" := kwWord (by decide)
  cases h with
  | mk p sw dw a b hp ha hb =>
    obtain ⟨t1, rfl, h1⟩ := hs
    have hsw := ha.words wS
    have hdw := hb.words wD
    obtain ⟨o2, t2, h2, s2⟩ := opt_ws_at (wl := sw ++ dw) (by
      intro w hw; rcases List.mem_append.1 hw with h | h
      · exact hsw w h
      · exact hdw w h) h1
    obtain ⟨t3, o3, t4, h3, h4, s4⟩ := side_read hg (key := "source") (by decide) ha (more := dw) (by
      intro w hw; rw [hb.head w hw]; decide +kernel) hdw s2
    have s4' : At rest (dw ++ []) t4 := by simpa using s4
    obtain ⟨t5, o5, t6, h5, h6, s6⟩ := side_read hg (key := "destination") (by decide) hb (more := []) (by simp) (by simp) s4'
    refine ⟨t6, ?_, ?_⟩
    · unfold svcPorts
      rw [bind_ok (oneOf_word hg h1.endOfWord (kwNoBlank (by decide +kernel)) (by
        simp only [List.mem_cons, List.not_mem_nil, or_false] at hp
        rcases hp with rfl | rfl | rfl <;> decide +kernel)), bind_ok h2, bind_ok h3, bind_ok h4, bind_ok h5, bind_ok h6]
      rfl
    · obtain ⟨n, hn, rfl⟩ := s6
      exact nl_ok hn

theorem icmpWord_word {w : String} (h : w ∈ icmpNames ∨ ByteWord w) : Word w := by
  rcases h with h | h
  · exact mem_word (by decide +kernel) h
  · exact h.word

theorem icmpNumber {c : String} (h : ByteWord c) {t : Text} (ht : EndOfWord t) :
    (intP >>= fun c => act (icmpCodeInt c) >>= fun n => (pure (String.ofList n) : P String)) (c.toList ++ t) = .ok c t := by
  rw [bind_ok (intP_digits h.1.1 h.1.2 ht),
    bind_ok (act_ok (((C34_number_checks c.toList c.toList h.1).2.2.2).2 ⟨rfl, h.2.2, h.2.1⟩) _), String.ofList_toList]
  rfl

theorem no_icmp_end (hg : GuardOk g) {t : Text} (ht : EndOfWord t) : icmpType g t = .fail ∧ intP t = .fail := by
  have hd : ∀ c ∈ t.head?, c.isDigit = false := by
    obtain ⟨s, u, rfl, hs⟩ := endOfWord_not_digit ht
    intro c hc; simp at hc; subst hc; exact hs
  refine ⟨?_, intP_fail hd⟩
  unfold icmpType
  rw [alt_fail (bind_fail (ahead_fail (bind_fail (oneOf_at_end hg (by decide +kernel) (by decide +kernel) ht))))]
  exact bind_fail (intP_fail hd)

/-- `[WS X]` where only the end of the line follows. -/
theorem opt_end {α : Type} {p : P α} {t : Text} (h : Aft tr rest [] t) (hp : ∀ t', EndOfWord t' → p t' = .fail) :
    opt (ws >>= fun _ => p) t = .ok none t := opt_fail (opt_at_end h.after hp)

theorem SvcIcmpWords.first {ws : List String} {s : Svc} (h : SvcIcmpWords ws s) :
    ∃ w wl, ws = w :: wl ∧ w ∈ ["icmp", "icmp6"] := by
  cases h <;> exact ⟨_, _, rfl, by assumption⟩

theorem svcIcmp_read (hg : GuardOk g) {iw : List String} {s : Svc} (h : SvcIcmpWords iw s) {t : Text}
    (hs : Sta tr rest iw t) : ∃ t', svcIcmp g t = .ok s t' ∧ Aft tr rest [] t' := by
  have hp1 : ∀ p, p ∈ ["icmp", "icmp6"] → ["icmp", "icmp6"].find? (mayMatch p) = some p := by
    intro p hp
    simp only [List.mem_cons, List.not_mem_nil, or_false] at hp
    rcases hp with rfl | rfl <;> decide +kernel
  unfold svcIcmp
  cases h with
  | plain p hp =>
    obtain ⟨t1, rfl, e1, s1⟩ := hs.word
    refine ⟨t1, ?_, s1⟩
    rw [bind_ok (oneOf_word hg e1 (kwNoBlank (by decide +kernel)) (hp1 p hp))]
    unfold icmpPart
    rw [bind_ok (opt_end s1 (fun t' ht' => bind_fail (no_icmp_end hg ht').1))]
    rfl
  | type p w hp hw =>
    obtain ⟨t1, rfl, e1, s1⟩ := hs.word
    obtain ⟨t2, h2, s2⟩ := s1.blanks (icmpWord_word hw)
    obtain ⟨t3, rfl, e3, s3⟩ := s2.word
    refine ⟨t3, ?_, s3⟩
    rw [bind_ok (oneOf_word hg e1 (kwNoBlank (by decide +kernel)) (hp1 p hp))]
    have : icmpPart g t1 = .ok (some (w, none)) t3 := by
      unfold icmpPart
      apply opt_ok
      rw [bind_ok h2, bind_ok (icmpType_read hg hw e3),
        bind_ok (opt_end s3 (fun t' ht' => bind_fail (no_icmp_end hg ht').2))]
      rfl
    rw [bind_ok this]
    rfl
  | code p w c hp hw hc =>
    obtain ⟨t1, rfl, e1, s1⟩ := hs.word
    obtain ⟨t2, h2, s2⟩ := s1.blanks (icmpWord_word hw)
    obtain ⟨t3, rfl, e3, s3⟩ := s2.word
    obtain ⟨t4, h4, s4⟩ := s3.blanks hc.word
    obtain ⟨t5, rfl, e5, s5⟩ := s4.word
    refine ⟨t5, ?_, s5⟩
    rw [bind_ok (oneOf_word hg e1 (kwNoBlank (by decide +kernel)) (hp1 p hp))]
    have : icmpPart g t1 = .ok (some (w, some c)) t5 := by
      unfold icmpPart
      apply opt_ok
      rw [bind_ok h2, bind_ok (icmpType_read hg hw e3), bind_ok (opt_ok (a := c) (r := t5) (by
        rw [bind_ok h4]
        exact icmpNumber hc e5))]
      rfl
    rw [bind_ok this]
    rfl

/-! ## members of service groups -/

theorem svcMember_first {e : Env} {ws : List String} {v : SvcMember} (hm : SvcMemberW e ws v) :
    ∃ w wl, ws = w :: wl ∧ mayMatch w "description" = false := by
  cases hm <;> exact ⟨_, _, rfl, by decide +kernel⟩

theorem oneOf_first_no (hg : GuardOk g) {l : List String} (hl : (l.all (fun k => k.toList.all (fun c => !isBlank c))) = true)
    {w : String} (hm : ∀ k ∈ l, mayMatch w k = false) {t : Text} (ht : EndOfWord t) : oneOf g l (w.toList ++ t) = .fail :=
  oneOf_no hg ht (kwNoBlank hl) hm

theorem protocolNumber_read {p : String} (h : ByteWord p) {t : Text} (ht : EndOfWord t) :
    protocolNumber (p.toList ++ t) = .ok p t := by
  unfold protocolNumber
  rw [bind_ok (intP_digits h.1.1 h.1.2 ht),
    bind_ok (act_ok (((C34_number_checks p.toList p.toList h.1).1).2 ⟨rfl, h.2.2, h.2.1⟩) _), String.ofList_toList]
  rfl

theorem otherCodes : ∀ p ∈ protocolCodes, p ∉ ["icmp", "icmp6", "tcp", "udp"] →
    (∀ k ∈ ["icmp", "icmp6"], mayMatch p k = false) ∧ (∀ k ∈ ["tcp-udp", "tcp", "udp"], mayMatch p k = false) := by
  decide +kernel

theorem serviceMember_read {e : Env} (he : e.WF) {ws : List String} {v : SvcMember} (hm : SvcMemberW e ws v) {t : Text}
    (hs : Sta true rest ws t) : serviceMember e t = .ok v rest := by
  have hg := he.guardOk
  unfold serviceMember
  have wo : Word "object" := kwWord (by decide)
  have wg : Word "group-object" := kwWord (by decide)
  cases hm with
  | icmp ws s h =>
    obtain ⟨w, wl, rfl, hp⟩ := h.first
    obtain ⟨t1, s1, f1⟩ := kw_step hg hs (by decide) (mem_word (by decide) hp)
    obtain ⟨t2, h2, s2⟩ := svcIcmp_read hg h s1
    apply alts_ok
    rw [f1, bind_ok h2, s2.finish]
    rfl
  | ports ws s h =>
    obtain ⟨w, wl, rfl, hp⟩ := h.first
    obtain ⟨t1, s1, f1⟩ := kw_step hg hs (by decide) (mem_word (by decide) hp)
    obtain ⟨t2, h2, s2⟩ := svcPorts_read hg h s1.starts
    rw [alts_fail (by
      rw [f1]
      obtain ⟨t3, rfl, e3, -⟩ := s1.word
      apply bind_fail
      apply bind_fail
      exact oneOf_first_no hg (by decide) (by
        simp only [List.mem_cons, List.not_mem_nil, or_false] at hp
        rcases hp with rfl | rfl | rfl <;> decide +kernel) e3)]
    apply alts_ok
    rw [f1, bind_ok h2, bind_ok s2]
    rfl
  | protocol p hp hne =>
    obtain ⟨t1, s1, f1⟩ := kw_step hg hs (by decide) (mem_word (by decide +kernel) hp)
    obtain ⟨t3, rfl, e3, s3⟩ := s1.word
    rw [alts_fail (by
        rw [f1]; exact bind_fail (bind_fail (oneOf_first_no hg (by decide) (otherCodes p hp hne).1 e3))),
      alts_fail (by
        rw [f1]; exact bind_fail (bind_fail (oneOf_first_no hg (by decide) (otherCodes p hp hne).2 e3)))]
    apply alts_ok
    rw [f1, bind_ok (alt_ok (oneOf_word hg e3 (kwNoBlank (by decide +kernel)) (find_protocolCodes p hp))), s3.finish]
    rfl
  | number p hp =>
    obtain ⟨t1, s1, f1⟩ := kw_step hg hs (by decide) hp.word
    obtain ⟨t3, rfl, e3, s3⟩ := s1.word
    rw [alts_fail (by
        rw [f1]; exact bind_fail (bind_fail (oneOf_first_no hg (by decide) (digit_noMatch (by decide +kernel) hp.1) e3))),
      alts_fail (by
        rw [f1]; exact bind_fail (bind_fail (oneOf_first_no hg (by decide) (digit_noMatch (by decide +kernel) hp.1) e3)))]
    apply alts_ok
    rw [f1, bind_ok (show alt (oneOf e.guard protocolCodes) protocolNumber (p.toList ++ t3) = .ok p t3 from by
      rw [alt_fail (oneOf_first_no hg (by decide +kernel) (digit_noMatch (by decide +kernel) hp.1) e3)]
      exact protocolNumber_read hp e3), s3.finish]
    rfl
  | object w o hk =>
    obtain ⟨t1, s1, f1⟩ := kw_step hg hs (by decide) wo
    obtain ⟨t2, s2, f2⟩ := kw_step hg s1 (by decide) (known_word he.svcObjs hk)
    obtain ⟨t3, h3, s3⟩ := refer_end hg he.svcObjs hk s2
    have no : ∀ l : List String, (l.all (fun k => k.toList.all (fun c => !isBlank c))) = true →
        (∀ k ∈ l, mayMatch "object" k = false) → oneOf e.guard l t1 = .fail := by
      intro l hl hm
      obtain ⟨t4, rfl, e4, -⟩ := s1.word
      exact oneOf_first_no hg hl hm e4
    have nn : protocolNumber t1 = .fail := by
      obtain ⟨t4, rfl, e4, -⟩ := s1.word
      exact bind_fail (intP_fail (by intro c hc; cases hc; decide))
    rw [alts_fail (by rw [f1]; exact bind_fail (bind_fail (no _ (by decide) (by decide +kernel)))),
      alts_fail (by rw [f1]; exact bind_fail (bind_fail (no _ (by decide) (by decide +kernel)))),
      alts_fail (by
        rw [f1]; apply bind_fail
        rw [alt_fail (no _ (by decide +kernel) (by decide +kernel))]; exact nn)]
    apply alts_ok
    rw [f1, f2, bind_ok h3, s3.finish]
    rfl
  | group w o hk =>
    obtain ⟨t1, s1, f1⟩ := kw_step hg hs (by decide) (known_word he.svcGroups hk)
    obtain ⟨t3, h3, s3⟩ := refer_end hg he.svcGroups hk s1
    rw [alts_fail (kw_no hg hs wg (by decide) (by decide) _), alts_fail (kw_no hg hs wg (by decide) (by decide) _),
      alts_fail (kw_no hg hs wg (by decide) (by decide) _), alts_fail (kw_no hg hs wg (by decide) (by decide) _)]
    apply alts_ok
    rw [f1, bind_ok h3, s3.finish]
    rfl

/-! ## ICMP and protocol groups -/

theorem icmpMember_first {e : Env} {ws : List String} {v : IcmpMember} (hm : IcmpMemberW e ws v) :
    ∃ w wl, ws = w :: wl ∧ mayMatch w "description" = false := by
  cases hm <;> exact ⟨_, _, rfl, by decide +kernel⟩

theorem icmpMember_read {e : Env} (he : e.WF) {ws : List String} {v : IcmpMember} (hm : IcmpMemberW e ws v) {t : Text}
    (hs : Sta false rest ws t) : icmpMember e t = .ok v rest := by
  have hg := he.guardOk
  unfold icmpMember
  have wg : Word "group-object" := kwWord (by decide)
  cases hm with
  | type w hw =>
    obtain ⟨t1, s1, f1⟩ := kw_step hg hs (by decide) (icmpWord_word hw)
    obtain ⟨t3, rfl, e3, s3⟩ := s1.word
    apply alts_ok
    rw [f1, bind_ok (icmpType_read hg hw e3), bind_ok s3.nl]
    rfl
  | group w o hk =>
    obtain ⟨t1, s1, f1⟩ := kw_step hg hs (by decide) (known_word he.icmpGroups hk)
    obtain ⟨t3, h3, s3⟩ := refer_end hg he.icmpGroups hk s1
    rw [alts_fail (kw_no hg hs wg (by decide) (by decide) _)]
    apply alts_ok
    rw [f1, bind_ok h3, bind_ok s3.nl]
    rfl

theorem protoMember_first {e : Env} {ws : List String} {v : ProtoMember} (hm : ProtoMemberW e ws v) :
    ∃ w wl, ws = w :: wl ∧ mayMatch w "description" = false := by
  cases hm <;> exact ⟨_, _, rfl, by decide +kernel⟩

theorem protocolMember_read {e : Env} (he : e.WF) {ws : List String} {v : ProtoMember} (hm : ProtoMemberW e ws v) {t : Text}
    (hs : Sta false rest ws t) : protocolMember e t = .ok v rest := by
  have hg := he.guardOk
  unfold protocolMember
  have wg : Word "group-object" := kwWord (by decide)
  cases hm with
  | protocol w hw =>
    obtain ⟨t1, s1, f1⟩ := kw_step hg hs (by decide) hw.word
    obtain ⟨t3, rfl, e3, s3⟩ := s1.word
    apply alts_ok
    rw [f1, bind_ok (objName_read hw e3), bind_ok s3.nl, String.ofList_toList]
    rfl
  | group w o hk =>
    obtain ⟨t1, s1, f1⟩ := kw_step hg hs (by decide) (known_word he.protoGroups hk)
    obtain ⟨t3, h3, s3⟩ := refer_end hg he.protoGroups hk s1
    rw [alts_fail (kw_no hg hs wg (by decide) (by decide) _)]
    apply alts_ok
    rw [f1, bind_ok h3, bind_ok s3.nl]
    rfl

end Acltk.FwsmText
