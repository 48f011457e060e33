import Verif.Lemmas.FwsmReadSvc
/-!
# Reading objects, groups and time ranges
-/
namespace Acltk.FwsmText
open Acltk Acltk.Lookup Acltk.Peg Acltk.AclText

variable {tr : Bool} {rest : Text} {g : Guard}

/-! ## network objects -/

theorem networkArgs_read (hg : GuardOk g) {ow : List String} {h : List Host} (ho : ObjWords ow h) {t : Text}
    (hs : Sta false rest ow t) : ∃ a, networkArgs g t = .ok a rest ∧ objAddresses a = .ok h := by
  have wS : Word "subnet" := kwWord (by decide)
  have wR : Word "range" := kwWord (by decide)
  have wF : Word "fqdn" := kwWord (by decide)
  unfold networkArgs
  cases ho with
  | host w a ha =>
    obtain ⟨t1, s1, f1⟩ := kw_step hg hs (by decide) ha.word
    obtain ⟨t3, rfl, e3, s3⟩ := s1.word
    refine ⟨.host a.text, ?_, ?_⟩
    · apply alts_ok
      rw [f1, bind_ok (addrLit_read ha e3), bind_ok s3.nl]
      rfl
    · simp only [objAddresses, ipAddress_text ha.valid]
  | subnet w m x q p n hx hw hq hmd hmask hn =>
    obtain ⟨t1, s1, f1⟩ := kw_step hg hs (by decide) (dotted_word hx hw)
    obtain ⟨t3, rfl, e3, s3⟩ := s1.word
    obtain ⟨t4, h4, s4⟩ := s3.blanks (dotted_word hq hmd)
    obtain ⟨t5, rfl, e5, s5⟩ := s4.word
    refine ⟨.subnet (⟨.v4, x⟩ : Addr).text (⟨.v4, q⟩ : Addr).text, ?_, ?_⟩
    · rw [alts_fail (kw_no hg hs wS (by decide) (by decide) _)]
      apply alts_ok
      rw [f1, bind_ok (ip4_read hx hw e3), bind_ok h4, bind_ok (ip4_read hq hmd e5), bind_ok s5.nl]
      rfl
    · have : (⟨.v4, q⟩ : Addr).text = m.toList := by rw [hmd, dotted_eq hq]; rfl
      simp only [objAddresses, this, mkNetwork_networkOf (a := ⟨.v4, x⟩) hx hmask hn]
  | subnet6 w a m x p n h6 hw hmd hmask hn =>
    have ww := v6Slash_word h6 hw hmd
    obtain ⟨t1, s1, f1⟩ := kw_step hg hs (by decide) ww
    obtain ⟨t2, rfl, e2, s2⟩ := s1.word
    have ew : w.toList ++ t2 = a ++ '/' :: (m ++ t2) := by rw [hw]; simp
    refine ⟨.subnet (⟨.v6, x⟩ : Addr).text m, ?_, ?_⟩
    · rw [alts_fail (kw_no hg hs wS (by decide) (by decide) _), alts_fail (by
        rw [f1, ew]; exact bind_fail (ip4_v6 h6 _))]
      apply alts_ok
      rw [f1, ew, bind_ok (ip6_text h6 (by intro c hc; simp at hc; subst hc; decide)),
        bind_ok (show slashP ('/' :: (m ++ t2)) = .ok () (m ++ t2) from rfl),
        bind_ok (intP_digits (maskText_ne hmask) hmd e2), bind_ok s2.nl]
      rfl
    · simp only [objAddresses, mkNetwork_networkOf (v6_valid h6) hmask hn]
  | range w v a b nets ha hb hv hle hbl =>
    obtain ⟨t1, s1, f1⟩ := kw_step hg hs (by decide) ha.word
    obtain ⟨t3, rfl, e3, s3⟩ := s1.word
    obtain ⟨t4, h4, s4⟩ := s3.blanks hb.word
    obtain ⟨t5, rfl, e5, s5⟩ := s4.word
    refine ⟨.range a.text b.text, ?_, ?_⟩
    · rw [alts_fail (kw_no hg hs wR (by decide) (by decide) _), alts_fail (kw_no hg hs wR (by decide) (by decide) _),
        alts_fail (kw_no hg hs wR (by decide) (by decide) _)]
      cases ha with
      | v4 x hx hw =>
        cases hb with
        | v4 y hy hw' =>
          apply alts_ok
          rw [f1, bind_ok (ip4_read hx hw e3), bind_ok h4, bind_ok (ip4_read hy hw' e5), bind_ok s5.nl]
          rfl
        | v6 y h6 => cases hv
      | v6 x h6 =>
        cases hb with
        | v4 y hy hw' => cases hv
        | v6 y h6' =>
          rw [alts_fail (by rw [f1]; exact bind_fail (ip4_v6 h6 _))]
          apply alts_ok
          rw [f1, bind_ok (ip6_text h6 (endOfWord_not_hex e3)), bind_ok h4,
            bind_ok (ip6_text h6' (endOfWord_not_hex e5)), bind_ok s5.nl]
          rfl
    · have hbv : b.ip < 2 ^ a.ver.width := by rw [hv]; exact hb.valid
      simp only [objAddresses, ipAddress_text ha.valid, ipAddress_text hb.valid, summarizeRange]
      rw [if_neg (by simpa using hv), if_neg (by omega), summarizeFrom_blocks hbl hbv]
      exact rebuildNets_ok (rangeBlocks_valid hbl hbv)
  | fqdn w hw hne =>
    obtain ⟨t1, s1, f1⟩ := kw_step hg hs (by decide) hw.word
    refine ⟨.fqdn none, ?_, rfl⟩
    rw [alts_fail (kw_no hg hs wF (by decide) (by decide) _), alts_fail (kw_no hg hs wF (by decide) (by decide) _),
      alts_fail (kw_no hg hs wF (by decide) (by decide) _), alts_fail (kw_no hg hs wF (by decide) (by decide) _),
      alts_fail (kw_no hg hs wF (by decide) (by decide) _)]
    apply alts_ok
    rw [f1, bind_ok (opt_fail (kws_no hg s1 hw.word (by decide) hne _))]
    obtain ⟨t3, rfl, e3, s3⟩ := s1.word
    rw [bind_ok (stringP_read hw e3), bind_ok s3.nl]
    rfl
  | fqdn4 w hw =>
    obtain ⟨t1, s1, f1⟩ := kw_step hg hs (by decide) (kwWord (k := "v4") (by decide))
    obtain ⟨t3, rfl, e3, s3⟩ := s1.word
    obtain ⟨t4, h4, s4⟩ := s3.blanks hw.word
    obtain ⟨t5, rfl, e5, s5⟩ := s4.word
    refine ⟨.fqdn (some "v4"), ?_, rfl⟩
    rw [alts_fail (kw_no hg hs wF (by decide) (by decide) _), alts_fail (kw_no hg hs wF (by decide) (by decide) _),
      alts_fail (kw_no hg hs wF (by decide) (by decide) _), alts_fail (kw_no hg hs wF (by decide) (by decide) _),
      alts_fail (kw_no hg hs wF (by decide) (by decide) _)]
    apply alts_ok
    rw [f1, bind_ok (opt_ok (a := "v4") (r := w.toList ++ t5) (by
      rw [bind_ok (oneOf_word hg e3 (kwNoBlank (by decide)) (by decide +kernel)), bind_ok h4]; rfl)),
      bind_ok (stringP_read hw e5), bind_ok s5.nl]
    rfl
  | fqdn6 w hw =>
    obtain ⟨t1, s1, f1⟩ := kw_step hg hs (by decide) (kwWord (k := "v6") (by decide))
    obtain ⟨t3, rfl, e3, s3⟩ := s1.word
    obtain ⟨t4, h4, s4⟩ := s3.blanks hw.word
    obtain ⟨t5, rfl, e5, s5⟩ := s4.word
    refine ⟨.fqdn (some "v6"), ?_, rfl⟩
    rw [alts_fail (kw_no hg hs wF (by decide) (by decide) _), alts_fail (kw_no hg hs wF (by decide) (by decide) _),
      alts_fail (kw_no hg hs wF (by decide) (by decide) _), alts_fail (kw_no hg hs wF (by decide) (by decide) _),
      alts_fail (kw_no hg hs wF (by decide) (by decide) _)]
    apply alts_ok
    rw [f1, bind_ok (opt_ok (a := "v6") (r := w.toList ++ t5) (by
      rw [bind_ok (oneOf_word hg e3 (kwNoBlank (by decide)) (by decide +kernel)), bind_ok h4]; rfl)),
      bind_ok (stringP_read hw e5), bind_ok s5.nl]
    rfl

theorem objectNat_no {s : St} {v : Text} (h : tok s.env.guard "nat" v = .fail) : objectNat s v = .fail := by
  have h' : ∀ ty, objectNatHead s ty v = .fail := fun ty => bind_fail h
  unfold objectNat
  rw [alt_fail (bind_fail (h' _))]
  exact bind_fail (h' _)

/-- The description that may follow is not a NAT line. -/
theorem descr_no_nat {s : St} (hg : GuardOk s.env.guard) {dt : Text} {d : Option (List Char)} (h : Descr dt d)
    (hr : NoSp rest) : opt (sp >>= fun _ => objectNat s) (dt ++ rest) = .ok none (dt ++ rest) := by
  apply opt_fail
  cases h with
  | none => exact bind_fail (sp_fail hr)
  | some b d hne hb hd hn hh =>
    have e : ' ' :: ("description".toList ++ (b ++ (d ++ ['\n']))) ++ rest =
        ' ' :: ("description".toList ++ (b ++ (d ++ ('\n' :: rest)))) := by simp
    rw [e, bind_ok (sp_cons _)]
    exact objectNat_no (tok_no hg (noBlank_of_decide (by decide)) (blanks_end hne hb) (by decide))

theorem objWords_first {ow : List String} {h : List Host} (ho : ObjWords ow h) : ∃ w wl, ow = w :: wl := by
  cases ho <;> exact ⟨_, _, rfl⟩

theorem objectNetwork_read {s : St} (he : s.env.WF) {n : String} {ow : List String} {l x dt : Text} {h : List Host}
    {d : Option (List Char)} (hn : IdWord n) (hl : Bare ["object", "network", n] l) (ho : ObjWords ow h)
    (hx : Bare ow x) (hd : Descr dt d) (hr : NoSp rest) :
    object s (l ++ (' ' :: (x ++ dt)) ++ rest) = .ok (.netObj n h none d,
      { s with env := { s.env with netObjs := enter s.env.netObjs n (.obj n h) } }) rest := by
  have hg := he.guardOk
  have e0 : l ++ (' ' :: (x ++ dt)) ++ rest = l ++ (' ' :: (x ++ (dt ++ rest))) := by simp
  rw [e0]
  obtain ⟨t1, s1, f1⟩ := kw_step hg (sta_of_bare hl (rest := ' ' :: (x ++ (dt ++ rest)))) (by decide)
    (kwWord (k := "network") (by decide))
  obtain ⟨t2, s2, f2⟩ := kw_step hg s1 (by decide) hn.word
  obtain ⟨t3, rfl, e3, s3⟩ := s2.word
  obtain ⟨a, h4, h5⟩ := networkArgs_read hg ho (sta_of_bare hx (rest := dt ++ rest))
  unfold object
  rw [f1]
  apply alt_ok
  unfold objectNetwork
  simp only []
  rw [f2, bind_ok (objName_read hn e3), bind_ok (opt_ok (a := (a, none)) (r := dt ++ rest) (by
    rw [bind_ok s3.nl, bind_ok (sp_cons _)]
    apply alt_ok
    rw [bind_ok h4]
    rfl)), bind_ok (descr_no_nat hg hd hr), bind_ok (descr_read hg hd hr.noDescr)]
  simp only []
  rw [bind_ok (act_ok h5 _), String.ofList_toList]
  simp only [enter, NatCmd.objectType, Option.map_none]
  by_cases hk : (dGet s.env.netObjs n).isSome
  · simp only [hk, if_true]
    rfl
  · simp only [hk]
    rfl

/-! ## service objects -/

theorem svcObjWords_read (hg : GuardOk g) {ow : List String} {v : Svc} (ho : SvcObjWords ow v) {t : Text}
    (hs : Sta false rest ow t) : serviceArgs g t = .ok v rest := by
  unfold serviceArgs
  cases ho with
  | icmp ws s h =>
    obtain ⟨w, wl, rfl, hp⟩ := h.first
    obtain ⟨t1, s1, f1⟩ := kw_step hg hs (by decide) (mem_word (by decide) hp)
    obtain ⟨t2, h2, s2⟩ := svcIcmp_read hg h s1
    apply alts_ok
    rw [f1, bind_ok h2, bind_ok s2.nl]
    rfl
  | ports ws s h =>
    obtain ⟨w, wl, rfl, hp⟩ := h.first
    obtain ⟨t1, s1, f1⟩ := kw_step hg hs (by decide) (mem_word (by decide) hp)
    obtain ⟨t2, h2, s2⟩ := svcPorts_read hg h s1.starts
    rw [alts_fail (by
      rw [f1]
      obtain ⟨t3, rfl, e3, -⟩ := s1.word
      apply bind_fail
      apply bind_fail
      exact oneOf_first_no hg (by decide) (by
        simp only [List.mem_cons, List.not_mem_nil, or_false] at hp
        rcases hp with rfl | rfl | rfl <;> decide +kernel) e3)]
    apply alts_ok
    rw [f1, bind_ok h2, bind_ok s2]
    rfl
  | number p hp =>
    obtain ⟨t1, s1, f1⟩ := kw_step hg hs (by decide) hp.word
    obtain ⟨t3, rfl, e3, s3⟩ := s1.word
    rw [alts_fail (by
        rw [f1]; exact bind_fail (bind_fail (oneOf_first_no hg (by decide) (digit_noMatch (by decide +kernel) hp.1) e3))),
      alts_fail (by
        rw [f1]; exact bind_fail (bind_fail (oneOf_first_no hg (by decide) (digit_noMatch (by decide +kernel) hp.1) e3)))]
    apply alts_ok
    rw [f1, bind_ok (protocolNumber_read hp e3), bind_ok s3.nl]
    rfl

theorem objectService_read {s : St} (he : s.env.WF) {n : String} {ow : List String} {l x dt : Text} {v : Svc}
    {d : Option (List Char)} (hn : IdWord n) (hl : Bare ["object", "service", n] l) (ho : SvcObjWords ow v)
    (hx : Bare ow x) (hd : Descr dt d) (hr : NoSp rest) :
    object s (l ++ (' ' :: (x ++ dt)) ++ rest) = .ok (.svcObj s.next n v d,
      { s with env := { s.env with svcObjs := enter s.env.svcObjs n s.next },
               svcDefs := s.svcDefs ++ [(s.next, n, v)], next := s.next + 1 }) rest := by
  have hg := he.guardOk
  have wS : Word "service" := kwWord (by decide)
  have e0 : l ++ (' ' :: (x ++ dt)) ++ rest = l ++ (' ' :: (x ++ (dt ++ rest))) := by simp
  rw [e0]
  obtain ⟨t1, s1, f1⟩ := kw_step hg (sta_of_bare hl (rest := ' ' :: (x ++ (dt ++ rest)))) (by decide) wS
  obtain ⟨t2, s2, f2⟩ := kw_step hg s1 (by decide) hn.word
  obtain ⟨t3, rfl, e3, s3⟩ := s2.word
  have h4 := svcObjWords_read hg ho (sta_of_bare hx (rest := dt ++ rest))
  unfold object
  rw [f1, alt_fail (show objectNetwork s t1 = .fail from kw_no hg s1 wS (by decide) (by decide) _)]
  unfold objectService
  simp only []
  rw [f2, bind_ok (objName_read hn e3), bind_ok (opt_ok (a := v) (r := dt ++ rest) (by
    rw [bind_ok s3.nl, bind_ok (sp_cons _)]
    exact h4)), bind_ok (descr_read hg hd hr.noDescr)]
  simp only []
  rw [bind_ok (act_ok rfl _), String.ofList_toList]
  simp only [enter]
  by_cases hk : (dGet s.env.svcObjs n).isSome
  · simp only [hk, if_true]
    rfl
  · simp only [hk]
    rfl

/-! ## groups -/

theorem groupBody_read {α : Type} {M : List String → α → Prop} {L : List String → List Char → Prop} {p : P α}
    (hg : GuardOk g) (hp : ∀ ws v l u, M ws v → L ws l → p (l ++ u) = .ok v u)
    (hL : ∀ ws l u, L ws l → Sta true u ws (l ++ u))
    (hM : ∀ ws v, M ws v → ∃ w wl, ws = w :: wl ∧ mayMatch w "description" = false)
    {n : String} (hn : IdWord n) {dt t : Text} {d : Option (List Char)} {vs : List α} (hd : Descr dt d)
    (h : Members M L t vs) (hr : NoSp rest) {t0 : Text} (hs : Aft true (dt ++ (t ++ rest)) [n] t0) :
    groupBody g p t0 = .ok (n, d, vs) rest := by
  obtain ⟨t1, h1, s1⟩ := hs.blanks hn.word
  obtain ⟨t2, rfl, e2, s2⟩ := s1.word
  unfold groupBody
  rw [bind_ok h1, bind_ok (objName_read hn e2), s2.finish,
    bind_ok (descr_read hg hd (members_noDescr hg hL hM h hr)), bind_ok (indented_read hp h hr), String.ofList_toList]
  rfl

theorem bare_sta {ws : List String} {l u : Text} (h : Bare ws l) : Sta true u ws (l ++ u) := by
  have := sta_of_bare (rest := u) h
  cases ws with
  | nil => exact this
  | cons w ws => obtain ⟨t', h1, h2⟩ := this; exact ⟨t', h1, h2.weaken⟩

theorem netGroup_read {s : St} (he : s.env.WF) {n : String} {l dt t : Text} {d : Option (List Char)} {vs : List Host}
    (hn : IdWord n) (hl : Line ["object-group", "network", n] l) (hd : Descr dt d)
    (hm : Members (NetMember s.env) Bare t vs) (hr : NoSp rest) :
    objectGroup s (l ++ (dt ++ t) ++ rest) = .ok (.netGroup n vs d,
      { s with env := { s.env with netGroups := dSet s.env.netGroups n (.group n vs) } }) rest := by
  have hg := he.guardOk
  have e0 : l ++ (dt ++ t) ++ rest = l ++ (dt ++ (t ++ rest)) := by simp
  rw [e0]
  obtain ⟨t1, s1, f1⟩ := kw_step hg (sta_of_line hl (rest := dt ++ (t ++ rest))) (by decide)
    (kwWord (k := "network") (by decide))
  obtain ⟨t2, rfl, e2, s2⟩ := s1.word
  unfold objectGroup
  rw [f1]
  unfold objectGroupType
  apply alts_ok
  rw [bind_ok (tok_self hg (by decide) e2), bind_ok (groupBody_read (M := NetMember s.env) (L := Bare) hg
    (fun ws v l u h1 h2 => networkMember_read he h1 (sta_of_bare h2)) (fun ws l u h => bare_sta h)
    (fun ws v h => netMember_first h) hn hd hm hr s2)]
  rfl

theorem icmpGroup_read {s : St} (he : s.env.WF) {n : String} {l dt t : Text} {d : Option (List Char)} {vs : List IcmpMember}
    (hn : IdWord n) (hl : Line ["object-group", "icmp-type", n] l) (hd : Descr dt d)
    (hm : Members (IcmpMemberW s.env) Bare t vs) (hr : NoSp rest) :
    objectGroup s (l ++ (dt ++ t) ++ rest) = .ok (.icmpGroup s.next n vs d,
      { s with env := { s.env with icmpGroups := dSet s.env.icmpGroups n s.next }, next := s.next + 1 }) rest := by
  have hg := he.guardOk
  have e0 : l ++ (dt ++ t) ++ rest = l ++ (dt ++ (t ++ rest)) := by simp
  rw [e0]
  obtain ⟨t1, s1, f1⟩ := kw_step hg (sta_of_line hl (rest := dt ++ (t ++ rest))) (by decide)
    (kwWord (k := "icmp-type") (by decide))
  have no : ∀ k : String, (k.toList.all (fun c => !isBlank c)) = true → mayMatch "icmp-type" k = false →
      tok s.env.guard k t1 = .fail := fun k h1 h2 => tok_no' hg s1 h1 h2
  unfold objectGroup
  rw [f1]
  unfold objectGroupType
  rw [alts_fail (bind_fail (no _ (by decide) (by decide))), alts_fail (bind_fail (no _ (by decide) (by decide))),
    alts_fail (bind_fail (no _ (by decide) (by decide)))]
  obtain ⟨t2, rfl, e2, s2⟩ := s1.word
  apply alts_ok
  rw [bind_ok (tok_self hg (by decide) e2), bind_ok (groupBody_read (M := IcmpMemberW s.env) (L := Bare) hg
    (fun ws v l u h1 h2 => icmpMember_read he h1 (sta_of_bare h2)) (fun ws l u h => bare_sta h)
    (fun ws v h => icmpMember_first h) hn hd hm hr s2)]
  rfl

theorem protoGroup_read {s : St} (he : s.env.WF) {n : String} {l dt t : Text} {d : Option (List Char)} {vs : List ProtoMember}
    (hn : IdWord n) (hl : Line ["object-group", "protocol", n] l) (hd : Descr dt d)
    (hm : Members (ProtoMemberW s.env) Bare t vs) (hr : NoSp rest) :
    objectGroup s (l ++ (dt ++ t) ++ rest) = .ok (.protoGroup s.next n vs d,
      { s with env := { s.env with protoGroups := dSet s.env.protoGroups n s.next }, next := s.next + 1 }) rest := by
  have hg := he.guardOk
  have e0 : l ++ (dt ++ t) ++ rest = l ++ (dt ++ (t ++ rest)) := by simp
  rw [e0]
  obtain ⟨t1, s1, f1⟩ := kw_step hg (sta_of_line hl (rest := dt ++ (t ++ rest))) (by decide)
    (kwWord (k := "protocol") (by decide))
  have no : ∀ k : String, (k.toList.all (fun c => !isBlank c)) = true → mayMatch "protocol" k = false →
      tok s.env.guard k t1 = .fail := fun k h1 h2 => tok_no' hg s1 h1 h2
  unfold objectGroup
  rw [f1]
  unfold objectGroupType
  rw [alts_fail (bind_fail (no _ (by decide) (by decide))), alts_fail (bind_fail (no _ (by decide) (by decide))),
    alts_fail (bind_fail (no _ (by decide) (by decide))), alts_fail (bind_fail (no _ (by decide) (by decide)))]
  obtain ⟨t2, rfl, e2, s2⟩ := s1.word
  apply alts_ok
  rw [bind_ok (tok_self hg (by decide) e2), bind_ok (groupBody_read (M := ProtoMemberW s.env) (L := Bare) hg
    (fun ws v l u h1 h2 => protocolMember_read he h1 (sta_of_bare h2)) (fun ws l u h => bare_sta h)
    (fun ws v h => protoMember_first h) hn hd hm hr s2)]
  rfl

theorem svcGroup_read {s : St} (he : s.env.WF) {n : String} {l dt t : Text} {d : Option (List Char)} {vs : List SvcMember}
    (hn : IdWord n) (hl : Line ["object-group", "service", n] l) (hd : Descr dt d)
    (hm : Members (SvcMemberW s.env) Line t vs) (hr : NoSp rest) :
    objectGroup s (l ++ (dt ++ t) ++ rest) = .ok (.svcGroup s.next n vs d,
      { s with env := { s.env with svcGroups := dSet s.env.svcGroups n s.next }, next := s.next + 1 }) rest := by
  have hg := he.guardOk
  have wS : Word "service" := kwWord (by decide)
  have e0 : l ++ (dt ++ t) ++ rest = l ++ (dt ++ (t ++ rest)) := by simp
  rw [e0]
  obtain ⟨t1, s1, f1⟩ := kw_step hg (sta_of_line hl (rest := dt ++ (t ++ rest))) (by decide) wS
  have no : tok s.env.guard "network" t1 = .fail := tok_no' hg s1 (by decide) (by decide)
  obtain ⟨t2, s2, f2⟩ := kw_step hg s1 (by decide) hn.word
  unfold objectGroup
  rw [f1]
  unfold objectGroupType
  rw [alts_fail (bind_fail no), alts_fail (by
    rw [f2]
    obtain ⟨t3, rfl, e3, s3⟩ := s2.word
    rw [bind_ok (objName_read hn e3)]
    exact opt_at_end s3.after (fun t' ht' => bind_fail (oneOf_at_end hg (by decide) (by decide) ht')))]
  obtain ⟨t2, rfl, e2, s2⟩ := s1.word
  apply alts_ok
  rw [bind_ok (tok_self hg (by decide) e2), bind_ok (groupBody_read (M := SvcMemberW s.env) (L := Line) hg
    (fun ws v l u h1 h2 => serviceMember_read he h1 (sta_of_line h2)) (fun ws l u h => sta_of_line h)
    (fun ws v h => svcMember_first h) hn hd hm hr s2)]
  rfl

theorem addAll_some {α : Type} (l : List α) : addAll (l.map some) = .ok l := by
  cases l with
  | nil => rfl
  | cons a l =>
    show Except.ok (a :: (l.map some).filterMap id) = _
    rw [List.filterMap_map]
    simp

theorem members_some {α : Type} {M : List String → α → Prop} {L : List String → List Char → Prop} {t : Text} {vs : List α}
    (h : Members M L t vs) : Members (fun ws v => ∃ x, v = some x ∧ M ws x) L t (vs.map some) := by
  induction h with
  | nil => exact .nil
  | cons ws v l t vs hm hl _ ih => exact .cons ws (some v) l t _ ⟨v, rfl, hm⟩ hl ih

theorem portGroup_read {s : St} (he : s.env.WF) {n p : String} {l dt t : Text} {d : Option (List Char)} {vs : List PortMember}
    (hn : IdWord n) (hp : p ∈ ["tcp-udp", "tcp", "udp"]) (hl : Line ["object-group", "service", n, p] l) (hd : Descr dt d)
    (hm : Members (PortMemberW s.env) Bare t vs) (hr : NoSp rest) :
    objectGroup s (l ++ (dt ++ t) ++ rest) = .ok (.portGroup s.next n p vs d,
      { s with env := { s.env with portGroups := dSet s.env.portGroups n s.next }, next := s.next + 1 }) rest := by
  have hg := he.guardOk
  have wS : Word "service" := kwWord (by decide)
  have e0 : l ++ (dt ++ t) ++ rest = l ++ (dt ++ (t ++ rest)) := by simp
  rw [e0]
  obtain ⟨t1, s1, f1⟩ := kw_step hg (sta_of_line hl (rest := dt ++ (t ++ rest))) (by decide) wS
  have no : tok s.env.guard "network" t1 = .fail := tok_no' hg s1 (by decide) (by decide)
  obtain ⟨t2, s2, f2⟩ := kw_step hg s1 (by decide) hn.word
  obtain ⟨t3, rfl, e3, s3⟩ := s2.word
  obtain ⟨t4, h4, s4⟩ := s3.blanks (mem_word (by decide) hp)
  obtain ⟨t5, rfl, e5, s5⟩ := s4.word
  have hm' := members_some hm
  unfold objectGroup
  rw [f1]
  unfold objectGroupType
  rw [alts_fail (bind_fail no)]
  apply alts_ok
  rw [f2, bind_ok (objName_read hn e3), bind_ok h4, bind_ok (oneOf_word hg e5 (kwNoBlank (by decide)) (by
    simp only [List.mem_cons, List.not_mem_nil, or_false] at hp
    rcases hp with rfl | rfl | rfl <;> decide +kernel)), s5.finish,
    bind_ok (descr_read hg hd (members_noDescr hg (fun ws l u h => bare_sta h) (fun ws v h => portMember_first h) hm hr)),
    bind_ok (indented_read (p := portMember s.env) (fun ws v l u ⟨x, hx, h1⟩ h2 => by
      subst hx; exact portMember_read he h1 (sta_of_bare h2)) hm' hr),
    bind_ok (act_ok (addAll_some vs) _), String.ofList_toList]
  rfl

end Acltk.FwsmText
