import Verif.Lemmas.IosLineBanner
/-!
# What each IOS command reads
-/
namespace Acltk.IosLines
open Acltk Acltk.Lookup Acltk.Peg Acltk.AclText Acltk.IosText
open Acltk.FwsmText (St Em)

variable {α β : Type} {g : Guard} {s : St}

theorem version_T : T SX (version g) S0 := T.keywordOL (by decide) (by decide) (by toend)

theorem hostname_T : T SX (FwsmText.hostname g) S0 := T.keywordOL (by decide) (by decide) (by toend)

theorem inLine_SN {p : P α} (h : InLine p) (hm : ∀ t a r, p t = .ok a r → ∀ c ∈ r.head?, c.isAlpha = false) : T SD p SN := by
  intro cur pre t a r hn hP hA hp
  obtain ⟨c, cur', q, h1, h2, h3⟩ := T.inl h _ _ _ _ _ hn hP hA hp
  exact ⟨c, cur', q, h1, h2, h3, hm _ _ _ hp⟩

theorem isAlpha_name {c : Char} (h : isNameChar c = false) : c.isAlpha = false := by
  unfold isNameChar Char.isAlphanum at h
  simp only [Bool.or_eq_false_iff] at h
  exact h.1.1.1.1.1

theorem identifier_SN : T SD identifier SN := inLine_SN inLine_identifier (by
  intro t a r h c hc
  have := FwsmText.pat_seq_star_max h c hc
  unfold Char.isAlphanum at this
  simp only [Bool.or_eq_false_iff] at this
  exact this.1.1.1.1)

theorem objName_SN : T SD objName SN := inLine_SN FwsmText.inl_objName (by
  intro t a r h c hc
  exact isAlpha_name (pat_star_max h c hc))

theorem toeol_SN : T SD toeol SN := inLine_SN FwsmText.inl_toeol (by
  intro t a r h c hc
  have := pat_star_max h c hc
  simp at this
  subst this
  decide)

theorem domainName_T : T SX (FwsmText.domainName g) SE :=
  T.keyword (by decide) (by decide) fun _ => T.bind (T.inl inLine_ws) fun _ => T.bind identifier_SN fun _ =>
    (T.pure _).post (fun _ _ _ h => Or.inr (Or.inl h))

/-! ## interfaces -/

theorem inl_vlan : InLine vlan := by
  unfold vlan
  staysin

theorem inl_vlanList : InLine vlanList := by
  have := inl_vlan
  unfold vlanList
  staysin

theorem inl_switchport : InLine (switchport g) := by
  have := inl_vlanList
  unfold switchport
  staysin

theorem inl_nameDir : InLine (nameDir g) := by
  unfold nameDir
  staysin

theorem inl_twoWords {a b : String} (ha : '\n' ∉ a.toList) (hb : '\n' ∉ b.toList) : InLine (twoWords g a b) := by
  have h1 := inLine_tok g ha
  have h2 := inLine_tok g hb
  unfold twoWords
  staysin

theorem interfaceDetail_T : T SC (interfaceDetail g) SB := by
  have h1 := inl_switchport (g := g)
  have h2 := inl_nameDir (g := g)
  have h3 := inl_twoWords (g := g) (a := "ip") (b := "address") (by decide) (by decide)
  have h4 := inl_twoWords (g := g) (a := "ip") (b := "access-group") (by decide) (by decide)
  have h5 := inl_twoWords (g := g) (a := "ipv6") (b := "address") (by decide) (by decide)
  have h6 := inl_twoWords (g := g) (a := "ipv6") (b := "traffic-filter") (by decide) (by decide)
  unfold interfaceDetail
  refine T.alts_cons (T.ofOL (by toend)) <| T.alts_cons (T.ofOL (by toend)) <| T.alts_cons (T.ofOL (by toend)) <|
    T.alts_cons (T.ofOL (by toend)) <| T.alts_cons (T.ofOL (by toend)) <| T.alts_cons (T.ofOL (by toend)) <|
    T.alts_cons (T.ofOL (by toend)) <| T.alts_cons ((T.pure _).post fun _ _ _ h => ⟨h.1, h.2.2⟩) T.alts_nil

theorem interface_T : T SX (interface s) SE := by
  refine T.keyword (by decide) (by decide) fun _ => T.bind (T.inl inLine_ws) fun _ => T.bind (T.inl inLine_stringP) fun _ =>
    T.bind (T.nl'.post fun _ _ _ h => h.sb) fun _ => T.bind (T.indented interfaceDetail_T) fun _ =>
    T.bind (T.act _) fun _ => (T.pure _).post fun _ _ _ h => h.se

/-! ## groups -/

theorem description_OL : OL (FwsmText.description g) := by
  unfold FwsmText.description
  toend

theorem optDescription_T : T S0 (FwsmText.optDescription g) S0 := T.opt' (T.bind T.sp0 fun _ => description_OL)

theorem OL.raise (e : PyErr) : OL (alts [act (.error e : Py α)]) := by
  intro cur pre t a r _ _ _ h
  cases h

theorem OL.raise' (e : PyErr) : OL (act (.error e : Py α)) := by
  intro cur pre t a r _ _ _ h
  cases h

theorem networkMember_OL {e : Env} (he : e.Clean) : OL (IosText.networkMember e) := by
  have hn := he.names
  have n1 : InLine (nameWs e) := inLine_refer hn
  have n2 : InLine (nameSlash e) := inLine_refer hn
  have h2 := he.netGroups
  unfold IosText.networkMember
  refine OL.alts_cons (by toend) <| OL.alts_cons (by toend) <| OL.alts_cons (by toend) <| OL.alts_cons (by toend) <|
    OL.alts_cons (by toend) <| OL.raise _

theorem serviceMember_OL {e : Env} (he : e.Clean) : OL (IosText.serviceMember e) := by
  have h1 := FwsmText.inl_svcIcmp (g := e.guard)
  have h2 := FwsmText.inl_svcPorts (g := e.guard)
  have h3 := FwsmText.inl_protocolNumber
  have h5 := he.svcGroups
  unfold IosText.serviceMember
  refine OL.alts_cons (by toend) <| OL.alts_cons (by toend) <| OL.alts_cons (by toend) <| OL.alts_cons (by toend) <| OL.raise _

theorem portMember_T {e : Env} (he : e.Clean) : T SC (FwsmText.portMember e) SB := by
  have h1 := he.portGroups
  unfold FwsmText.portMember
  refine T.alts_cons (T.ofOL (by toend)) <| T.alts_cons (T.ofOL (by toend)) <| T.alts_cons (T.ofOL (by toend)) <|
    T.alts_cons ((T.pure _).post fun _ _ _ h => ⟨h.1, h.2.2⟩) T.alts_nil

theorem icmpMember_OL {e : Env} (he : e.Clean) : OL (FwsmText.icmpMember e) := by
  have h1 := he.icmpGroups
  unfold FwsmText.icmpMember
  refine OL.alts_cons (by toend) <| OL.alts_cons (by toend) <| OL.raise _

theorem protocolMember_OL {e : Env} (he : e.Clean) : OL (FwsmText.protocolMember e) := by
  have h1 := he.protoGroups
  unfold FwsmText.protocolMember
  refine OL.alts_cons (by toend) <| OL.alts_cons (by toend) <| OL.raise _

theorem groupBody_T {m : P α} (hm : OL m) : T SD (FwsmText.groupBody g m) SE := by
  unfold FwsmText.groupBody
  refine T.bind (T.inl inLine_ws) fun _ => T.bind (T.inl FwsmText.inl_objName) fun _ => T.bind (T.inl (InLine.opt inLine_ws)) fun _ =>
    T.bind T.nl' fun _ => T.bind (optDescription_T.post fun _ _ _ h => h.sb) fun _ => T.bind (T.indented (T.ofOL hm)) fun _ =>
    (T.pure _).post fun _ _ _ h => h.se

theorem objectGroup_T (hs : s.Clean) : T SX (objectGroup s) SE := by
  have he := hs.env
  unfold objectGroup
  refine T.keyword (by decide) (by decide) fun _ => T.bind (T.inl inLine_ws) fun _ => T.bind (B := SE) ?_ fun _ => T.pure _
  unfold objectGroupType
  dsimp only
  refine T.alts_cons ?_ <| T.alts_cons ?_ <| T.alts_cons ?_ <| T.alts_cons ?_ <| T.alts_cons ?_ T.alts_nil
  · exact T.bind (T.inl (inLine_tok _ (by decide))) fun _ => T.bind (groupBody_T (networkMember_OL he)) fun _ => T.pure _
  · refine T.bind (T.inl (inLine_tok _ (by decide))) fun _ => T.bind (T.inl inLine_ws) fun _ => T.bind (T.inl FwsmText.inl_objName) fun _ =>
      T.bind (T.inl inLine_ws) fun _ => T.bind (T.inl (inLine_oneOf _ (by decide))) fun _ =>
      T.bind (T.inl (InLine.opt inLine_ws)) fun _ =>
      T.bind T.nl' fun _ => T.bind (optDescription_T.post fun _ _ _ h => h.sb) fun _ => T.bind (T.indented (portMember_T he)) fun _ =>
      T.bind (T.act _) fun _ => (T.pure _).post fun _ _ _ h => h.se
  · exact T.bind (T.inl (inLine_tok _ (by decide))) fun _ => T.bind (groupBody_T (serviceMember_OL he)) fun _ => T.pure _
  · exact T.bind (T.inl (inLine_tok _ (by decide))) fun _ => T.bind (groupBody_T (icmpMember_OL he)) fun _ => T.pure _
  · exact T.bind (T.inl (inLine_tok _ (by decide))) fun _ => T.bind (groupBody_T (protocolMember_OL he)) fun _ => T.pure _

/-! ## ignored commands -/

theorem ignoredIndent_T : T S0 IosText.ignoredIndent S0 := by
  unfold IosText.ignoredIndent
  exact T.bind (T.many (T.bind T.sp0 fun _ => T.bind (T.inl FwsmText.inl_toeol) fun _ => T.nl')) fun _ => T.pure _

/-- The tail of an ignored command, unless it is a DHCP pool. -/
theorem tail_T (k : IosText.Tail) (hk : k ≠ .pool) : T SD (IosText.tail k) SE := by
  have h : ∀ (f : Unit → P Unit), (∀ a, T S0 (f a) S0) → T SD (do let _ ← toeol; nl >>= f) SE := fun f hf =>
    T.bind (T.inl FwsmText.inl_toeol) fun _ => T.bind T.nl' fun a => (hf a).post fun _ _ _ h => h.se
  have n : T SD Peg.nl SE := T.nl'.post fun _ _ _ h => h.se
  cases k
  · exact T.bind (T.inl inLine_ws) fun _ => T.bind (T.inl FwsmText.inl_toeol) fun _ => n
  · exact T.bind (T.inl FwsmText.inl_toeol) fun _ => n
  · exact n
  · exact T.bind (T.inl inLine_ws) fun _ => h _ fun _ => ignoredIndent_T
  · exact h _ fun _ => ignoredIndent_T
  · exact T.bind T.nl' fun _ => ignoredIndent_T.post fun _ _ _ h => h.se
  · exact absurd rfl hk
  · exact T.bind toeol_SN fun _ => (T.pure _).post fun _ _ _ h => Or.inr (Or.inl h)
  · exact T.bind (T.inl inLine_ws) fun _ => T.bind toeol_SN fun _ => (T.pure _).post fun _ _ _ h => Or.inr (Or.inl h)

theorem ignoredOf_T {l : List (String × IosText.Tail)}
    (h : ∀ kt ∈ l, Foreign kt.1.toList ∧ '\n' ∉ kt.1.toList ∧ kt.2 ≠ .pool) : T SX (ignoredOf g l) SE := by
  unfold ignoredOf
  apply T.alts_map
  intro p hp
  obtain ⟨kt, hk, rfl⟩ := List.mem_map.1 hp
  obtain ⟨h1, h2, h3⟩ := h kt hk
  exact T.keyword h1 h2 fun _ => tail_T _ h3

theorem T.false {p : P α} (h : ∀ cur pre t a r, '\n' ∉ pre → Plain pre t → A cur pre t → p t = .ok a r → False) : T A p B :=
  fun cur pre t a r hn hP hA hp => (h cur pre t a r hn hP hA hp).elim

theorem usingLine_T : T SX (usingLine g) SE := by
  refine T.post (T.keywordOL (by decide) (by decide) ?_) (fun _ _ _ h => S0.se h)
  toend

theorem defineRange_T : T SX (defineRange g) SE := by
  unfold defineRange
  exact T.keyword (by decide) (by decide) fun _ => T.bind (T.inl inLine_ws) fun _ => T.bind (T.inl (inLine_tok _ (by decide))) fun _ =>
    tail_T _ (by decide)

theorem ignored_T (hg : ∀ r, g "^C" r = true) : T SE (ignored g) SE := by
  unfold ignored
  have f : ∀ {l : List (String × IosText.Tail)}, (∀ kt ∈ l, Foreign kt.1.toList ∧ '\n' ∉ kt.1.toList ∧ kt.2 ≠ .pool) →
      T SE (ignoredOf g l) SE := fun h => (ignoredOf_T h).pre fun _ _ _ h => h.sx
  refine T.alts_cons (f (by decide +kernel)) <| T.alts_cons (banner_T hg) <| T.alts_cons (f (by decide +kernel)) <|
    T.alts_cons (defineRange_T.pre fun _ _ _ h => h.sx) <| T.alts_cons (f (by decide +kernel)) <|
    T.alts_cons (usingLine_T.pre fun _ _ _ h => h.sx) <| T.alts_cons (f (by decide +kernel)) <|
    T.alts_cons ((T.nl.pre fun _ _ _ h => h.sx).post fun _ _ _ h => h.se) T.alts_nil

end Acltk.IosLines
