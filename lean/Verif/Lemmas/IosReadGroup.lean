import Verif.Lemmas.IosReadHost
import Verif.Lemmas.FwsmReadObj
/-!
# Reading the object groups of an IOS configuration
-/
namespace Acltk.IosText
open Acltk Acltk.Lookup Acltk.Peg Acltk.AclText
open Acltk.FwsmText (St Bare LineRest Descr Members Aft Sta ip4_read known_word kwWord tok_self refer_end sta_of_bare NoSp
  sta_of_line kw_step kw_no kws_no tok_no' bare_sta groupBody_read groupBody SvcMember)

variable {rest : Text} {g : Guard} {tr : Bool}

theorem mayMatch_prefix {w k : String} (h : mayMatch w k = true) : k.toList <+: w.toList := by
  unfold mayMatch at h
  rw [Bool.or_eq_true] at h
  rcases h with h | h
  · rw [beq_iff_eq] at h; subst h; exact List.prefix_refl _
  · rw [Bool.and_eq_true] at h
    exact List.isPrefixOf_iff_prefix.1 h.1

theorem mayMatch_char {w k : String} {c : Char} (hk : c ∈ k.toList) (hw : c ∉ w.toList) : mayMatch w k = false := by
  cases h : mayMatch w k with
  | false => rfl
  | true => exact absurd ((mayMatch_prefix h).subset hk) hw

theorem dotted_no_s {w : String} {x : Nat} (hx : x < 2 ^ 32) (hw : w.toList = Dotted x) : 's' ∉ w.toList := by
  rw [hw, dotted_eq hx]; exact fmtV4_no x (by decide) (by decide)

theorem v6Slash_no_s {w : String} {a m : List Char} {x : Nat} (h6 : V6Text a x) (hw : w.toList = a ++ '/' :: m)
    (hm : ∀ c ∈ m, c.isDigit = true) : 's' ∉ w.toList := by
  rw [hw]
  intro h
  rcases List.mem_append.1 h with h | h
  · have := (v6_chars h6).2 _ h; revert this; decide
  · rcases List.mem_cons.1 h with h | h
    · cases h
    · have := hm _ h; revert this; decide

theorem netMemberW_first {e : Env} {ws : List String} {h : Host} (hm : NetMemberW e ws h) :
    ∃ w wl, ws = w :: wl ∧ mayMatch w "description" = false := by
  cases hm with
  | host => exact ⟨_, _, rfl, by decide +kernel⟩
  | masked w m x q p n hx hw => exact ⟨_, _, rfl, mayMatch_char (c := 's') (by decide) (dotted_no_s hx hw)⟩
  | slash w a m x p n h6 hw hm => exact ⟨_, _, rfl, mayMatch_char (c := 's') (by decide) (v6Slash_no_s h6 hw hm)⟩
  | group => exact ⟨_, _, rfl, by decide +kernel⟩

theorem netLine_sta {ws : List String} {l u : Text} (h : NetLine ws l) : Sta true u ws (l ++ u) := by
  cases h with
  | bare h => exact bare_sta h
  | line _ h => exact sta_of_line h

theorem networkMember_read {e : Env} (he : e.WF) (hnm : e.names = []) {ws : List String} {h : Host} (hm : NetMemberW e ws h)
    {l : List Char} (hl : NetLine ws l) : networkMember e (l ++ rest) = .ok h rest := by
  have hg := he.guardOk
  have hs := netLine_sta (u := rest) hl
  unfold networkMember
  have wh : Word "host" := kwWord (by decide)
  have wg : Word "group-object" := kwWord (by decide)
  have unk : ∀ (w : String) v, ¬ Known e.names w v := by
    intro w v hk
    rw [Known, hnm] at hk
    cases hk
  cases hm with
  | host w a ha =>
    obtain ⟨t1, s1, f1⟩ := kw_step hg hs (by decide) (ha.word he)
    obtain ⟨t3, rfl, e3, s3⟩ := s1.word
    apply alts_ok
    rw [f1, bind_ok (FwsmText.addrWord_member he ha e3), s3.finish]
    rfl
  | masked w m x q p n hx hw hq hmd hmask hn =>
    have ww := dotted_word hx hw
    rw [alts_fail (kw_no hg hs ww (by decide) (by
        rintro rfl; exact dotted_no_s hx hw (by decide)) _),
      alts_fail (kw_no hg hs ww (by decide) (by
        rintro rfl; exact dotted_not_kw hx hw (l := ["range"]) (by decide +kernel) (by simp)) _)]
    apply alts_ok
    obtain ⟨t2, h2, e2, s2⟩ := hs.word
    obtain ⟨t3, h3, s3⟩ := s2.blanks (dotted_word hq hmd)
    obtain ⟨t4, rfl, e4, s4⟩ := s3.word
    rw [h2, bind_ok (show alt (nameWs e) ip4 (w.toList ++ t2) = _ from by
        rw [alt_fail (nameWs_fail he ww.noBlank (unk w) e2)]; exact ip4_read hx hw e2),
      bind_ok h3, bind_ok (ip4_read hq hmd e4), s4.finish]
    have : (⟨.v4, q⟩ : Addr).text = m.toList := by rw [hmd, dotted_eq hq]; rfl
    rw [this, bind_ok (act_ok (mkNetwork_networkOf (a := ⟨.v4, x⟩) hx hmask hn) _)]
    rfl
  | slash w a m x p n h6 hw hmd hmask hn =>
    have ww := FwsmText.v6Slash_word h6 hw hmd
    have hsl : '/' ∈ w.toList := by rw [hw]; simp
    rw [alts_fail (kw_no hg hs ww (by decide) (FwsmText.slash_not_kw hsl (by decide)) _),
      alts_fail (kw_no hg hs ww (by decide) (FwsmText.slash_not_kw hsl (by decide)) _)]
    obtain ⟨t2, h2, e2, s2⟩ := hs.word
    rw [h2, alts_fail (by
      apply bind_fail
      rw [alt_fail (nameWs_fail he ww.noBlank (unk w) e2), hw, List.append_assoc]
      exact ip4_v6 h6 _)]
    apply alts_ok
    have ew : w.toList ++ t2 = a ++ '/' :: (m ++ t2) := by rw [hw]; simp
    have a1 : alt (nameSlash e) ip6 (w.toList ++ t2) = .ok ⟨.v6, x⟩ ('/' :: (m ++ t2)) := by
      rw [ew, alt_fail (nameSlash_unknown he (v6_no h6 (by decide)) (unk _) _)]
      apply ip6_text h6
      intro c hc; simp at hc; subst hc; decide
    rw [bind_ok a1, bind_ok (show slashP ('/' :: (m ++ t2)) = .ok () (m ++ t2) from rfl),
      bind_ok (intP_digits (FwsmText.maskText_ne hmask) hmd e2), s2.finish,
      bind_ok (act_ok (mkNetwork_networkOf (FwsmText.v6_valid h6) hmask hn) _)]
    rfl
  | group w h hk =>
    have hb : Bare ["group-object", w] l := by
      cases hl with
      | bare hb => exact hb
      | line hb _ => exact absurd rfl hb
    have hs := sta_of_bare (rest := rest) hb
    obtain ⟨t1, s1, f1⟩ := kw_step hg hs (by decide) (known_word he.netGroups hk)
    obtain ⟨t3, h3, s3⟩ := refer_end hg he.netGroups hk s1
    rw [alts_fail (kw_no hg hs wg (by decide) (by decide) _), alts_fail (kw_no hg hs wg (by decide) (by decide) _)]
    obtain ⟨t2, h2, e2, s2⟩ := hs.word
    rw [alts_fail (by
        rw [h2]
        apply bind_fail
        rw [alt_fail (nameWs_fail he wg.noBlank (unk _) e2)]
        exact FwsmText.ip6_not_ip4_word wg (by decide) _),
      alts_fail (by
        rw [h2]
        apply bind_fail
        rw [alt_fail (nameSlash_fail he (w := "group-object") (by decide) e2)]
        apply bind_fail
        apply pat_fail
        show ip6Re.run ('g' :: _) = []
        simp [ip6Re, Re.run, starRests, isHex, Re.chr])]
    apply alts_ok
    rw [f1, bind_ok h3, bind_ok s3.nl]
    rfl

theorem svcMemberW_first {e : Env} {ws : List String} {v : SvcMember} (hm : SvcMemberW e ws v) :
    ∃ w wl, ws = w :: wl ∧ mayMatch w "description" = false := by
  cases hm with
  | icmp ws s h =>
    obtain ⟨w, wl, rfl, hp⟩ := h.first
    exact ⟨w, wl, rfl, (by decide +kernel : ∀ w ∈ ["icmp", "icmp6"], mayMatch w "description" = false) w hp⟩
  | ports ws s h =>
    obtain ⟨w, wl, rfl, hp⟩ := h.first
    exact ⟨w, wl, rfl, (by decide +kernel : ∀ w ∈ ["tcp-udp", "tcp", "udp"], mayMatch w "description" = false) w hp⟩
  | protocol p hp _ =>
    exact ⟨_, _, rfl, (by decide +kernel : ∀ w ∈ Words.protocols, mayMatch w "description" = false) p hp⟩
  | number p hp =>
    refine ⟨_, _, rfl, mayMatch_char (c := 's') (by decide) ?_⟩
    intro h
    have := hp.1.2 _ h; revert this; decide
  | group w o hk => exact ⟨_, _, rfl, by decide +kernel⟩

theorem serviceMember_read {e : Env} (he : e.WF) {ws : List String} {v : SvcMember} (hm : SvcMemberW e ws v) {t : Text}
    (hs : Sta true rest ws t) : serviceMember e t = .ok v rest := by
  have hg := he.guardOk
  unfold serviceMember
  have wg : Word "group-object" := kwWord (by decide)
  cases hm with
  | icmp ws s h =>
    obtain ⟨t2, h2, s2⟩ := FwsmText.svcIcmp_read hg h hs
    apply alts_ok
    rw [bind_ok h2, s2.finish]
    rfl
  | ports ws s h =>
    obtain ⟨w, wl, rfl, hp⟩ := h.first
    obtain ⟨t2, h2, s2⟩ := FwsmText.svcPorts_read hg h hs.starts
    rw [alts_fail (by
      obtain ⟨t3, rfl, e3, -⟩ := hs.word
      apply bind_fail
      apply bind_fail
      exact FwsmText.oneOf_first_no hg (by decide) (by
        simp only [List.mem_cons, List.not_mem_nil, or_false] at hp
        rcases hp with rfl | rfl | rfl <;> decide +kernel) e3)]
    apply alts_ok
    rw [bind_ok h2, bind_ok s2]
    rfl
  | protocol p hp hne =>
    obtain ⟨t3, rfl, e3, s3⟩ := hs.word
    have h1 : FwsmText.svcIcmp e.guard (p.toList ++ t3) = .fail :=
      bind_fail (FwsmText.oneOf_first_no hg (by decide) (FwsmText.otherCodes p hp hne).1 e3)
    have h2 : FwsmText.svcPorts e.guard (p.toList ++ t3) = .fail :=
      bind_fail (FwsmText.oneOf_first_no hg (by decide) (FwsmText.otherCodes p hp hne).2 e3)
    rw [alts_fail (bind_fail h1), alts_fail (bind_fail h2)]
    apply alts_ok
    rw [bind_ok (alt_ok (oneOf_word hg e3 (kwNoBlank (by decide +kernel)) (find_protocolCodes p hp))), s3.finish]
    rfl
  | number p hp =>
    obtain ⟨t3, rfl, e3, s3⟩ := hs.word
    have h1 : FwsmText.svcIcmp e.guard (p.toList ++ t3) = .fail :=
      bind_fail (FwsmText.oneOf_first_no hg (by decide) (digit_noMatch (by decide +kernel) hp.1) e3)
    have h2 : FwsmText.svcPorts e.guard (p.toList ++ t3) = .fail :=
      bind_fail (FwsmText.oneOf_first_no hg (by decide) (digit_noMatch (by decide +kernel) hp.1) e3)
    rw [alts_fail (bind_fail h1), alts_fail (bind_fail h2)]
    apply alts_ok
    rw [bind_ok (show alt (oneOf e.guard protocolCodes) FwsmText.protocolNumber (p.toList ++ t3) = .ok p t3 from by
      rw [alt_fail (FwsmText.oneOf_first_no hg (by decide +kernel) (digit_noMatch (by decide +kernel) hp.1) e3)]
      exact FwsmText.protocolNumber_read hp e3), s3.finish]
    rfl
  | group w o hk =>
    obtain ⟨t1, s1, f1⟩ := kw_step hg hs (by decide) (known_word he.svcGroups hk)
    obtain ⟨t3, h3, s3⟩ := refer_end hg he.svcGroups hk s1
    have no : ∀ l : List String, (l.all (fun k => k.toList.all (fun c => !isBlank c))) = true →
        (∀ k ∈ l, mayMatch "group-object" k = false) → oneOf e.guard l t = .fail := by
      intro l hl hm
      obtain ⟨t4, rfl, e4, -⟩ := hs.word
      exact FwsmText.oneOf_first_no hg hl hm e4
    have nn : FwsmText.protocolNumber t = .fail := by
      obtain ⟨t4, rfl, e4, -⟩ := hs.word
      exact bind_fail (intP_fail (by intro c hc; cases hc; decide))
    have h1 : FwsmText.svcIcmp e.guard t = .fail := bind_fail (no _ (by decide) (by decide +kernel))
    have h2 : FwsmText.svcPorts e.guard t = .fail := bind_fail (no _ (by decide) (by decide +kernel))
    rw [alts_fail (bind_fail h1), alts_fail (bind_fail h2), alts_fail (by
        apply bind_fail
        rw [alt_fail (no _ (by decide +kernel) (by decide +kernel))]; exact nn)]
    apply alts_ok
    rw [f1, bind_ok h3, s3.finish]
    rfl

/-! ## groups -/

/-- The kind of the group, its name and its members. -/
theorem groupType_read {s : St} (hg : GuardOk s.env.guard) {k w : String} {wl : List String} (hk : Word k) {l : List Char}
    (hl : Line ("object-group" :: k :: w :: wl) l) {u : Text} {i : FwsmText.Item} {s' : St}
    (h : ∀ t, Sta true u (k :: w :: wl) t → objectGroupType s t = .ok (i, s') rest) :
    objectGroup s (l ++ u) = .ok (.base i, s') rest := by
  obtain ⟨t1, s1, f1⟩ := kw_step hg (sta_of_line hl (rest := u)) (by decide) hk
  unfold objectGroup
  rw [f1, bind_ok (h t1 s1)]
  rfl

theorem netGroup_read {s : St} (he : s.env.WF) (hnm : s.env.names = []) {n : String} {l dt t : Text} {d : Option (List Char)}
    {vs : List Host} (hn : IdWord n) (hl : Line ["object-group", "network", n] l) (hd : Descr dt d)
    (hm : Members (NetMemberW s.env) NetLine t vs) (hr : NoSp rest) :
    objectGroup s (l ++ (dt ++ (t ++ rest))) = .ok (.base (.netGroup n vs d),
      { s with env := { s.env with netGroups := dSet s.env.netGroups n (.group n vs) } }) rest := by
  have hg := he.guardOk
  refine groupType_read hg (kwWord (by decide)) hl (fun t1 s1 => ?_)
  obtain ⟨t2, rfl, e2, s2⟩ := s1.word
  unfold objectGroupType
  apply alts_ok
  rw [bind_ok (tok_self hg (by decide) e2), bind_ok (groupBody_read (M := NetMemberW s.env) (L := NetLine) hg
    (fun ws v l u h1 h2 => networkMember_read he hnm h1 h2) (fun ws l u h => netLine_sta h)
    (fun ws v h => netMemberW_first h) hn hd hm hr s2)]
  rfl

theorem icmpGroup_read {s : St} (he : s.env.WF) {n : String} {l dt t : Text} {d : Option (List Char)}
    {vs : List FwsmText.IcmpMember} (hn : IdWord n) (hl : Line ["object-group", "icmp-type", n] l) (hd : Descr dt d)
    (hm : Members (FwsmText.IcmpMemberW s.env) Bare t vs) (hr : NoSp rest) :
    objectGroup s (l ++ (dt ++ (t ++ rest))) = .ok (.base (.icmpGroup s.next n vs d),
      { s with env := { s.env with icmpGroups := dSet s.env.icmpGroups n s.next }, next := s.next + 1 }) rest := by
  have hg := he.guardOk
  refine groupType_read hg (kwWord (by decide)) hl (fun t1 s1 => ?_)
  have no : ∀ k : String, (k.toList.all (fun c => !isBlank c)) = true → mayMatch "icmp-type" k = false →
      tok s.env.guard k t1 = .fail := fun k h1 h2 => tok_no' hg s1 h1 h2
  unfold objectGroupType
  rw [alts_fail (bind_fail (no _ (by decide) (by decide))), alts_fail (bind_fail (no _ (by decide) (by decide))),
    alts_fail (bind_fail (no _ (by decide) (by decide)))]
  obtain ⟨t2, rfl, e2, s2⟩ := s1.word
  apply alts_ok
  rw [bind_ok (tok_self hg (by decide) e2), bind_ok (groupBody_read (M := FwsmText.IcmpMemberW s.env) (L := Bare) hg
    (fun ws v l u h1 h2 => FwsmText.icmpMember_read he h1 (sta_of_bare h2)) (fun ws l u h => bare_sta h)
    (fun ws v h => FwsmText.icmpMember_first h) hn hd hm hr s2)]
  rfl

theorem protoGroup_read {s : St} (he : s.env.WF) {n : String} {l dt t : Text} {d : Option (List Char)}
    {vs : List FwsmText.ProtoMember} (hn : IdWord n) (hl : Line ["object-group", "protocol", n] l) (hd : Descr dt d)
    (hm : Members (FwsmText.ProtoMemberW s.env) Bare t vs) (hr : NoSp rest) :
    objectGroup s (l ++ (dt ++ (t ++ rest))) = .ok (.base (.protoGroup s.next n vs d),
      { s with env := { s.env with protoGroups := dSet s.env.protoGroups n s.next }, next := s.next + 1 }) rest := by
  have hg := he.guardOk
  refine groupType_read hg (kwWord (by decide)) hl (fun t1 s1 => ?_)
  have no : ∀ k : String, (k.toList.all (fun c => !isBlank c)) = true → mayMatch "protocol" k = false →
      tok s.env.guard k t1 = .fail := fun k h1 h2 => tok_no' hg s1 h1 h2
  unfold objectGroupType
  rw [alts_fail (bind_fail (no _ (by decide) (by decide))), alts_fail (bind_fail (no _ (by decide) (by decide))),
    alts_fail (bind_fail (no _ (by decide) (by decide))), alts_fail (bind_fail (no _ (by decide) (by decide)))]
  obtain ⟨t2, rfl, e2, s2⟩ := s1.word
  apply alts_ok
  rw [bind_ok (tok_self hg (by decide) e2), bind_ok (groupBody_read (M := FwsmText.ProtoMemberW s.env) (L := Bare) hg
    (fun ws v l u h1 h2 => FwsmText.protocolMember_read he h1 (sta_of_bare h2)) (fun ws l u h => bare_sta h)
    (fun ws v h => FwsmText.protoMember_first h) hn hd hm hr s2)]
  rfl

theorem svcGroup_read {s : St} (he : s.env.WF) {n : String} {l dt t : Text} {d : Option (List Char)} {vs : List SvcMember}
    (hn : IdWord n) (hl : Line ["object-group", "service", n] l) (hd : Descr dt d)
    (hm : Members (SvcMemberW s.env) Line t vs) (hr : NoSp rest) :
    objectGroup s (l ++ (dt ++ (t ++ rest))) = .ok (.base (.svcGroup s.next n vs d),
      { s with env := { s.env with svcGroups := dSet s.env.svcGroups n s.next }, next := s.next + 1 }) rest := by
  have hg := he.guardOk
  refine groupType_read hg (kwWord (by decide)) hl (fun t1 s1 => ?_)
  have no : tok s.env.guard "network" t1 = .fail := tok_no' hg s1 (by decide) (by decide)
  obtain ⟨t2, s2, f2⟩ := kw_step hg s1 (by decide) hn.word
  unfold objectGroupType
  rw [alts_fail (bind_fail no), alts_fail (by
    rw [f2]
    obtain ⟨t3, rfl, e3, s3⟩ := s2.word
    rw [bind_ok (objName_read hn e3)]
    exact opt_at_end s3.after (fun t' ht' => bind_fail (oneOf_at_end hg (by decide) (by decide) ht')))]
  obtain ⟨t2, rfl, e2, s2⟩ := s1.word
  apply alts_ok
  rw [bind_ok (tok_self hg (by decide) e2), bind_ok (groupBody_read (M := SvcMemberW s.env) (L := Line) hg
    (fun ws v l u h1 h2 => serviceMember_read he h1 (sta_of_line h2)) (fun ws l u h => sta_of_line h)
    (fun ws v h => svcMemberW_first h) hn hd hm hr s2)]
  rfl

theorem portGroup_read {s : St} (he : s.env.WF) {n p : String} {l dt t : Text} {d : Option (List Char)}
    {vs : List FwsmText.PortMember} (hn : IdWord n) (hp : p ∈ ["tcp-udp", "tcp", "udp"])
    (hl : Line ["object-group", "service", n, p] l) (hd : Descr dt d)
    (hm : Members (FwsmText.PortMemberW s.env) Bare t vs) (hr : NoSp rest) :
    objectGroup s (l ++ (dt ++ (t ++ rest))) = .ok (.base (.portGroup s.next n p vs d),
      { s with env := { s.env with portGroups := dSet s.env.portGroups n s.next }, next := s.next + 1 }) rest := by
  have hg := he.guardOk
  refine groupType_read hg (kwWord (by decide)) hl (fun t1 s1 => ?_)
  have no : tok s.env.guard "network" t1 = .fail := tok_no' hg s1 (by decide) (by decide)
  obtain ⟨t2, s2, f2⟩ := kw_step hg s1 (by decide) hn.word
  obtain ⟨t3, rfl, e3, s3⟩ := s2.word
  obtain ⟨t4, h4, s4⟩ := s3.blanks (mem_word (by decide) hp)
  obtain ⟨t5, rfl, e5, s5⟩ := s4.word
  have hm' := FwsmText.members_some hm
  unfold objectGroupType
  rw [alts_fail (bind_fail no)]
  apply alts_ok
  rw [f2, bind_ok (objName_read hn e3), bind_ok h4, bind_ok (oneOf_word hg e5 (kwNoBlank (by decide)) (by
    simp only [List.mem_cons, List.not_mem_nil, or_false] at hp
    rcases hp with rfl | rfl | rfl <;> decide +kernel)), s5.finish,
    bind_ok (FwsmText.descr_read hg hd (FwsmText.members_noDescr hg (fun ws l u h => bare_sta h)
      (fun ws v h => FwsmText.portMember_first h) hm hr)),
    bind_ok (FwsmText.indented_read (p := FwsmText.portMember s.env) (fun ws v l u ⟨x, hx, h1⟩ h2 => by
      subst hx; exact FwsmText.portMember_read he h1 (sta_of_bare h2)) hm' hr),
    bind_ok (act_ok (FwsmText.addAll_some vs) _), String.ofList_toList]
  rfl

end Acltk.IosText
