import Verif.Lemmas.FwsmInv
/-!
# What each command of a configuration reads
-/
namespace Acltk.FwsmText
open Acltk Acltk.Lookup Acltk.Peg Acltk.AclText

/-- No name in the tables or among the interfaces contains a line feed. -/
structure St.Clean (s : St) : Prop where
  env : s.env.Clean
  ifaces : ∀ p ∈ s.ifaces, '\n' ∉ p.1.toList

variable {α β : Type} {g : Guard} {s : St}

/-- A command of one line that begins with a keyword. -/
theorem T.keyword {w : String} {f : String → P β} {B : As} (hs : Dead w.toList) (hn : '\n' ∉ w.toList) (hf : ∀ a, T SD (f a) B) :
    T SX (Peg.tok g w >>= f) B := T.bind (T.tok hs hn) hf

theorem T.keywordOL {w : String} {f : String → P β} (hs : Dead w.toList) (hn : '\n' ∉ w.toList) (hf : ∀ a, OL (f a)) :
    T SX (Peg.tok g w >>= f) S0 := T.bind (T.tok hs hn) hf

theorem version_T : T SX version S0 := by
  have one : ∀ (a : Char) (e : Re), Dead [a] → a ≠ '\n' → e.Within (· ≠ '\n') → T SX (pat (.seq (.chr a) e)) SD := by
    intro a e ha hn he pre t v r _ hA h
    have h0 : (Re.seq (.chr a) e).Within (· ≠ '\n') := ⟨by intro c hc; simp at hc; subst hc; exact hn, he⟩
    have hfirst : ∃ u, t = a :: u ∧ ∃ c, u = c ++ r := by
      unfold pat at h
      generalize hr : (Re.seq (.chr a) e).run t = l at h
      cases l with
      | nil => cases h
      | cons x l =>
        cases h
        have hm : r ∈ (Re.seq (.chr a) e).run t := hr ▸ List.mem_cons_self
        cases t with
        | nil => simp [Re.run, Re.chr] at hm
        | cons y t =>
          simp only [Re.run, Re.chr] at hm
          split at hm
          · rename_i hy
            simp at hm hy
            subst hy
            obtain ⟨c, hc, -⟩ := Re.run_inv he hm
            exact ⟨t, rfl, c, hc⟩
          · simp at hm
    obtain ⟨c, hc, -, hw⟩ := reads_pat h0 _ _ _ h
    obtain ⟨u, rfl, d, rfl⟩ := hfirst
    have : c = a :: d := by
      have : a :: d ++ r = c ++ r := by simpa using hc
      exact (List.append_cancel_right this).symm
    subst this
    have hno : '\n' ∉ a :: d := fun hm => hw _ hm rfl
    refine ⟨a :: d, pre ++ (a :: d), by simp, .line hno, ?_⟩
    rcases hA with rfl | hA
    · exact Dead.append (p := [a]) ha d
    · exact hA.append _
  unfold version
  refine T.bind (T.alt (one _ _ (by decide) (by decide) ?_) (one _ _ (by decide) (by decide) ?_)) fun _ => T.bind T.nl' fun _ => T.pure _
  all_goals
    simp only [Re.chr, Re.Within]
    repeat' apply And.intro
    all_goals (intro c h e; subst e; revert h; decide)

theorem hostname_T : T SX (hostname g) S0 := T.keywordOL (by decide) (by decide) (by oneline)

theorem pat_seq_star_max {a : Re} {q : Char → Bool} {t r : Text} {v : List Char} (h : pat (.seq a (.star q)) t = .ok v r) :
    ∀ c ∈ r.head?, q c = false := by
  unfold pat at h
  simp only [Re.run] at h
  generalize hl : a.run t = l at h
  cases l with
  | nil => cases h
  | cons x l =>
    simp only [List.flatMap_cons] at h
    generalize hr : starRests q x = m at h
    cases m with
    | nil => exact absurd hr (by cases x with
        | nil => simp [starRests]
        | cons y t => simp only [starRests]; split <;> simp)
    | cons u m =>
      cases h
      exact starRests_max hr

theorem domainName_T : T SX (domainName g) SE := by
  refine T.keyword (by decide) (by decide) fun _ => T.bind (T.inl inLine_ws) fun _ => T.bind (B := SN) ?_ fun _ =>
    (T.pure _).post (fun _ _ h => Or.inr ⟨h.1, Or.inl h.2⟩)
  intro pre t a r hn hA h
  obtain ⟨c, q, h1, h2, h3⟩ := T.inl inLine_identifier _ _ _ _ hn hA h
  refine ⟨c, q, h1, h2, h3, fun e => ?_⟩
  have := pat_seq_star_max h 'a' (by rw [e]; simp)
  revert this
  decide

theorem inl_addressKey {fam : String} (h : '\n' ∉ fam.toList) : InLine (addressKey g fam) :=
  (inLine_tok g h).bind fun _ => by inline

theorem name_T : T SX (name s) S0 := T.keywordOL (by decide) (by decide) (by oneline)

/-- Indented lines of one kind. -/
theorem T.indented {p : P α} (h : T SC p SB) : T SB (indented p) SB := T.many (T.bind T.sp fun _ => h)

theorem T.ofOL {p : P α} (h : OL p) : T SC p SB := (T.pre h (fun _ _ h => h.dead)).post (fun _ _ h => h.sb)


theorem interfaceDetail_T : T SC (interfaceDetail g) SB := by
  have hk : ∀ {fam : String}, '\n' ∉ fam.toList → InLine (addressKey g fam) := inl_addressKey
  have h1 := hk (fam := "ip") (by decide)
  have h2 := hk (fam := "ipv6") (by decide)
  unfold interfaceDetail
  repeat' apply T.alts_cons
  · exact T.ofOL (by oneline)
  · exact T.ofOL (by oneline)
  · exact T.ofOL (by oneline)
  · exact T.ofOL (by oneline)
  · exact T.ofOL (by oneline)
  · exact (T.pure _).post (fun _ _ h => h.2)
  · exact T.alts_nil

theorem interface_T : T SX (interface s) SE := by
  refine T.keyword (by decide) (by decide) fun _ => T.bind (T.inl inLine_ws) fun _ => T.bind (T.inl inLine_stringP) fun _ =>
    T.bind (T.nl'.post fun _ _ h => h.sb) fun _ => T.bind (T.indented interfaceDetail_T) fun _ =>
    T.bind (T.act _) fun _ => (T.pure _).post fun _ _ h => h.se

theorem inl_twoDigits : InLine twoDigits := InLine.bind (inLine_pat (by
  simp only [Re.optional, Re.Within]
  repeat' apply And.intro
  all_goals first
    | trivial
    | (intro c h e; subst e; revert h; decide))) fun _ => inLine_pure _

theorem inl_fourDigits : InLine fourDigits := InLine.bind (inLine_pat (by
  simp only [Re.Within]
  repeat' apply And.intro
  all_goals (intro c h e; subst e; revert h; decide))) fun _ => inLine_pure _

theorem inl_colon : InLine colonP := by
  intro t a r h
  unfold colonP at h
  split at h
  · cases h; exact ⟨[':'], rfl, by decide⟩
  · cases h

theorem inl_clock : InLine clock := inl_twoDigits.bind fun _ => inl_colon.bind fun _ => inl_twoDigits.bind fun _ => inLine_pure _

theorem inl_time : InLine time := inl_clock.bind fun _ => inLine_act _

theorem inl_timedate : InLine (timedate g) := by
  have h1 := inl_clock
  have h2 := inl_twoDigits
  have h3 := inl_fourDigits
  unfold timedate
  inline

theorem timeRangeObject_OL : OL (timeRangeObject g) := by
  have h1 := inl_time
  have h2 := inl_timedate (g := g)
  unfold timeRangeObject
  oneline

theorem timeRange_T : T SX (timeRange s) SE := by
  refine T.keyword (by decide) (by decide) fun _ => T.bind (T.inl inLine_ws) fun _ => T.bind (T.inl inLine_stringP) fun _ =>
    T.bind (T.nl'.post fun _ _ h => h.sb) fun _ => T.bind (T.indented (T.ofOL timeRangeObject_OL)) fun _ =>
    T.bind (T.act _) fun _ => (T.pure _).post fun _ _ h => h.se

/-! ## NAT -/

theorem OL.then {p : P α} {f : α → P β} (h : OL p) (hf : ∀ a, Em (f a)) : OL (p >>= f) :=
  T.bind h fun a => T.empty (hf a)

theorem inl_ids {l : List String} (hl : ∀ n ∈ l, '\n' ∉ n.toList) :
    InLine (fun t => match internalIds g l t with
      | some (_, r) => .ok () r
      | none => .fail : P Unit) := by
  intro t a r h
  simp only at h
  generalize hi : internalIds g l t = w at h
  cases w with
  | none => cases h
  | some y =>
    obtain ⟨m, u⟩ := y
    cases h
    unfold internalIds at hi
    obtain ⟨k, hk, ht⟩ := List.exists_of_findSome?_eq_some hi
    obtain ⟨rfl, rfl⟩ := token_inv ht
    unfold descending at hk
    exact ⟨_, rfl, hl _ ((List.mergeSort_perm _ _).mem_iff.1 hk)⟩

theorem St.Clean.ids (hs : s.Clean) : ∀ n ∈ keys s.ifaces, '\n' ∉ n.toList := by
  intro n hn
  obtain ⟨p, hp, rfl⟩ := List.mem_map.1 hn
  exact hs.ifaces p hp

theorem inl_interfaceRef (hs : s.Clean) : InLine (interfaceRef s) := by
  have h1 := inl_ids (g := s.env.guard) hs.ids
  intro t a r h
  unfold interfaceRef at h
  split at h
  · rename_i n r' hi
    split at h
    · cases h
      exact h1 t () r (by simp only [hi])
    · cases h
  · cases h

theorem inl_natIface (hs : s.Clean) : InLine (natIface s) := by
  have := inl_interfaceRef hs
  unfold natIface
  inline

theorem inl_natInterfaces (hs : s.Clean) : InLine (natInterfaces s) := by
  have := inl_natIface hs
  unfold natInterfaces
  inline

theorem inl_netRef (hs : s.Clean) : InLine (netRef s) := by
  have h1 := hs.env.netObjs
  have h2 := hs.env.netGroups
  unfold netRef
  inline

theorem inl_fallback : InLine (fallback g) := by
  unfold fallback
  inline

theorem inl_optFallback : InLine (optFallback g) := by
  have := inl_fallback (g := g)
  unfold optFallback
  inline

theorem inl_patPool (hs : s.Clean) : InLine (patPool s) := by
  have h1 := hs.env.netObjs
  have h2 := hs.env.netGroups
  unfold patPool
  inline

theorem inl_natMapped (hs : s.Clean) : InLine (natMapped s) := by
  have h1 := inl_netRef hs
  have h2 := inl_fallback (g := s.env.guard)
  have h3 := inl_optFallback (g := s.env.guard)
  have h4 := inl_patPool hs
  unfold natMapped
  inline

theorem objectNat_OL (hs : s.Clean) : OL (objectNat s) := by
  have h1 := inl_natInterfaces hs
  have h4 := inl_natMapped hs
  have h5 : InLine (objectNatHead s "dynamic") := by unfold objectNatHead; inline
  have h6 : InLine (objectNatHead s "static") := by unfold objectNatHead; inline
  have h7 : InLine (objectNatService s.env.guard) := by unfold objectNatService; inline
  have h8 : OL (objectNatTail s.env.guard) := by unfold objectNatTail; oneline
  unfold objectNat
  apply T.alt
  · exact T.bind (T.inl h5) fun _ => OL.then h8 fun _ => Em.pure _
  · refine T.bind (T.inl h6) fun _ => T.bind (T.inl (by inline)) fun _ => OL.then h8 fun _ => Em.pure _

theorem inl_mappedNode (hs : s.Clean) : InLine (mappedNode s) := by
  have h1 := inl_netRef hs
  have h2 := inl_fallback (g := s.env.guard)
  unfold mappedNode
  inline

theorem inl_mappedDynamic (hs : s.Clean) : InLine (mappedDynamic s) := by
  have h1 := inl_netRef hs
  have h2 := inl_fallback (g := s.env.guard)
  have h3 := inl_optFallback (g := s.env.guard)
  have h4 := inl_patPool hs
  unfold mappedDynamic
  inline

theorem inl_realNode (hs : s.Clean) : InLine (realNode s) := by
  have h1 := hs.env.netObjs
  have h2 := hs.env.netGroups
  unfold realNode
  inline

theorem inl_natSrc (hs : s.Clean) : InLine (natSrc s) := by
  have h1 := inl_realNode hs
  have h2 := inl_mappedNode hs
  have h3 := inl_mappedDynamic hs
  unfold natSrc
  inline

theorem inl_natDst (hs : s.Clean) : InLine (natDst s) := by
  have h1 := inl_netRef hs
  have h2 := inl_mappedNode hs
  unfold natDst
  inline

theorem inl_natOption : InLine (natOption g) := by
  unfold natOption
  inline

theorem toeol_SN : T SD toeol SN := by
  intro pre t a r hn hA h
  obtain ⟨c, q, h1, h2, h3⟩ := T.inl inl_toeol _ _ _ _ hn hA h
  refine ⟨c, q, h1, h2, h3, fun e => ?_⟩
  have := pat_star_max h 'a' (by rw [e]; simp)
  revert this
  decide

theorem nat_T (hs : s.Clean) : T SX (nat s) SE := by
  have h1 := inl_natInterfaces hs
  have h2 := inl_natSrc hs
  have h3 := inl_natDst hs
  have h4 := hs.env.svcObjs
  have h5 := inl_natOption (g := s.env.guard)
  have h6 := inl_interfaceRef hs
  unfold nat
  apply T.alt
  · refine T.post (T.keywordOL (by decide) (by decide) ?_) (fun _ _ h => S0.se h)
    oneline
  · refine T.keyword (by decide) (by decide) fun _ => T.bind (T.inl inLine_ws) fun _ => T.bind (T.inl (inl_chr (by decide))) fun _ =>
      T.bind (T.inl h6) fun _ => T.bind (T.inl (inl_chr (by decide))) fun _ => T.bind toeol_SN fun _ =>
      (T.pure _).post (fun _ _ h => Or.inr ⟨h.1, Or.inl h.2⟩)


/-! ## objects and groups -/

theorem description_OL : OL (description g) := by
  unfold description
  oneline

/-- Before or behind a complete line. -/
def SF : As := fun p t => S0 p t ∨ SN p t

theorem SF.sx {p : List Char} {t : Text} (h : SF p t) : SX p t := h.elim Or.inl (fun h => Or.inr h.1)
theorem SF.se {p : List Char} {t : Text} (h : SF p t) : SE p t := h.elim Or.inl (fun h => Or.inr ⟨h.1, Or.inl h.2⟩)

theorem T.optLine {p : P α} (h : OL p) : T SF (Peg.opt (do Peg.sp; p)) SF :=
  T.opt' ((T.bind (T.spX.pre fun _ _ h => h.sx) fun _ => h).post fun _ _ h => Or.inl h)

theorem optDescription_T : T SF (optDescription g) SF := T.optLine description_OL

theorem networkArgs_OL : OL (networkArgs g) := by
  unfold networkArgs
  oneline

theorem objName_SN : T SD objName SN := by
  intro pre t a r hn hA h
  obtain ⟨c, q, h1, h2, h3⟩ := T.inl inl_objName _ _ _ _ hn hA h
  refine ⟨c, q, h1, h2, h3, fun e => ?_⟩
  have := pat_star_max h 'a' (by rw [e]; simp)
  revert this
  decide

theorem T.optNlLine {p : P α} (h : OL p) : T SN (Peg.opt (do Peg.nl; Peg.sp; p)) SF :=
  (T.opt (B := S0) (T.bind (T.nl.pre fun _ _ h => Or.inr h.1) fun _ => T.bind T.sp0 fun _ => h)).post
    (fun _ _ h => h.elim Or.inr Or.inl)

theorem OL.alt' {p q : P α} (hp : OL p) (hq : OL q) : OL (Peg.alt p q) := T.alt hp hq

theorem objectNetwork_T (hs : s.Clean) : T SD (objectNetwork s) SE := by
  unfold objectNetwork
  dsimp only
  refine T.bind (T.inl (inLine_tok _ (by decide))) fun _ => T.bind (T.inl inLine_ws) fun _ => T.bind objName_SN fun _ =>
    T.bind (T.optNlLine ?_) fun _ => T.bind (T.optLine (objectNat_OL hs)) fun _ => T.bind optDescription_T fun _ =>
    T.bind (T.act _) fun _ => (T.pure _).post fun _ _ h => h.se
  exact OL.alt' (networkArgs_OL.then fun _ => Em.pure _) ((objectNat_OL hs).then fun _ => Em.pure _)

theorem inl_serviceOp : InLine (serviceOp g) := by
  unfold serviceOp
  inline

theorem inl_serviceSide {k : String} (hk : '\n' ∉ k.toList) : InLine (serviceSide g k) := by
  have := inl_serviceOp (g := g)
  have h2 := inLine_tok g hk
  unfold serviceSide
  inline

theorem inl_icmpPart : InLine (icmpPart g) := by
  unfold icmpPart
  inline

theorem inl_svcIcmp : InLine (svcIcmp g) := by
  have := inl_icmpPart (g := g)
  unfold svcIcmp
  inline

theorem inl_svcPorts : InLine (svcPorts g) := by
  have h1 := inl_serviceSide (g := g) (k := "source") (by decide)
  have h2 := inl_serviceSide (g := g) (k := "destination") (by decide)
  unfold svcPorts
  inline

theorem inl_protocolNumber : InLine protocolNumber := by
  unfold protocolNumber
  inline

theorem serviceArgs_OL : OL (serviceArgs g) := by
  have h1 := inl_svcIcmp (g := g)
  have h2 := inl_svcPorts (g := g)
  have h3 := inl_protocolNumber
  unfold serviceArgs
  oneline

theorem objectService_T : T SD (objectService s) SE := by
  unfold objectService
  dsimp only
  refine T.bind (T.inl (inLine_tok _ (by decide))) fun _ => T.bind (T.inl inLine_ws) fun _ => T.bind objName_SN fun _ =>
    T.bind (T.optNlLine serviceArgs_OL) fun _ => T.bind optDescription_T fun _ =>
    T.bind (T.act _) fun _ => (T.pure _).post fun _ _ h => h.se

theorem object_T (hs : s.Clean) : T SX (object s) SE :=
  T.keyword (by decide) (by decide) fun _ => T.bind (T.inl inLine_ws) fun _ => T.alt (objectNetwork_T hs) objectService_T

/-- The last alternative of a member raises. -/
theorem OL.raise (e : PyErr) : OL (alts [act (.error e : Py α)]) := by
  intro pre t a r _ _ h
  cases h

theorem networkMember_OL {e : Env} (he : e.Clean) : OL (networkMember e) := by
  have hn := he.names
  have n1 : InLine (nameWs e) := inLine_refer hn
  have n2 : InLine (nameSlash e) := inLine_refer hn
  have h1 := he.netObjs
  have h2 := he.netGroups
  unfold networkMember
  refine OL.alts_cons (by oneline) <| OL.alts_cons (by oneline) <| OL.alts_cons (by oneline) <| OL.alts_cons (by oneline) <|
    OL.alts_cons (by oneline) <| OL.raise _

theorem portMember_T {e : Env} (he : e.Clean) : T SC (portMember e) SB := by
  have h1 := he.portGroups
  unfold portMember
  refine T.alts_cons (T.ofOL (by oneline)) <| T.alts_cons (T.ofOL (by oneline)) <| T.alts_cons (T.ofOL (by oneline)) <|
    T.alts_cons ((T.pure _).post fun _ _ h => h.2) T.alts_nil

theorem serviceMember_OL {e : Env} (he : e.Clean) : OL (serviceMember e) := by
  have h1 := inl_svcIcmp (g := e.guard)
  have h2 := inl_svcPorts (g := e.guard)
  have h3 := inl_protocolNumber
  have h4 := he.svcObjs
  have h5 := he.svcGroups
  unfold serviceMember
  refine OL.alts_cons (by oneline) <| OL.alts_cons (by oneline) <| OL.alts_cons (by oneline) <| OL.alts_cons (by oneline) <|
    OL.alts_cons (by oneline) <| OL.raise _

theorem icmpMember_OL {e : Env} (he : e.Clean) : OL (icmpMember e) := by
  have h1 := he.icmpGroups
  unfold icmpMember
  refine OL.alts_cons (by oneline) <| OL.alts_cons (by oneline) <| OL.raise _

theorem protocolMember_OL {e : Env} (he : e.Clean) : OL (protocolMember e) := by
  have h1 := he.protoGroups
  unfold protocolMember
  refine OL.alts_cons (by oneline) <| OL.alts_cons (by oneline) <| OL.raise _

theorem optDescription_T0 : T S0 (optDescription g) S0 :=
  T.opt' (T.bind T.sp0 fun _ => description_OL)

theorem groupBody_T {m : P α} (hm : OL m) : T SD (groupBody g m) SE := by
  unfold groupBody
  refine T.bind (T.inl inLine_ws) fun _ => T.bind (T.inl inl_objName) fun _ => T.bind (T.inl (InLine.opt inLine_ws)) fun _ =>
    T.bind T.nl' fun _ => T.bind (optDescription_T0.post fun _ _ h => h.sb) fun _ => T.bind (T.indented (T.ofOL hm)) fun _ =>
    (T.pure _).post fun _ _ h => h.se

theorem objectGroupType_T (hs : s.Clean) : T SD (objectGroupType s) SE := by
  have he := hs.env
  unfold objectGroupType
  dsimp only
  refine T.alts_cons ?_ <| T.alts_cons ?_ <| T.alts_cons ?_ <| T.alts_cons ?_ <| T.alts_cons ?_ T.alts_nil
  · exact T.bind (T.inl (inLine_tok _ (by decide))) fun _ => T.bind (groupBody_T (networkMember_OL he)) fun _ => T.pure _
  · refine T.bind (T.inl (inLine_tok _ (by decide))) fun _ => T.bind (T.inl inLine_ws) fun _ => T.bind (T.inl inl_objName) fun _ =>
      T.bind (T.inl inLine_ws) fun _ => T.bind (T.inl (inLine_oneOf _ (by decide))) fun _ =>
      T.bind (T.inl (InLine.opt inLine_ws)) fun _ =>
      T.bind T.nl' fun _ => T.bind (optDescription_T0.post fun _ _ h => h.sb) fun _ => T.bind (T.indented (portMember_T he)) fun _ =>
      T.bind (T.act _) fun _ => (T.pure _).post fun _ _ h => h.se
  · exact T.bind (T.inl (inLine_tok _ (by decide))) fun _ => T.bind (groupBody_T (serviceMember_OL he)) fun _ => T.pure _
  · exact T.bind (T.inl (inLine_tok _ (by decide))) fun _ => T.bind (groupBody_T (icmpMember_OL he)) fun _ => T.pure _
  · exact T.bind (T.inl (inLine_tok _ (by decide))) fun _ => T.bind (groupBody_T (protocolMember_OL he)) fun _ => T.pure _

theorem objectGroup_T (hs : s.Clean) : T SX (objectGroup s) SE :=
  T.keyword (by decide) (by decide) fun _ => T.bind (T.inl inLine_ws) fun _ => objectGroupType_T hs

/-! ## the other commands -/

theorem accessGroup_T : T SX (accessGroup g) S0 := by
  unfold accessGroup
  apply T.alt
  · exact T.keywordOL (by decide) (by decide) (by oneline)
  · exact T.keywordOL (by decide) (by decide) (by oneline)

theorem ignoredIndent_T : T S0 ignoredIndent S0 := by
  unfold ignoredIndent
  refine T.bind (T.many (T.bind (T.opt' (T.nl.pre fun _ _ h => Or.inl h)) fun _ => T.bind T.sp0 fun _ => T.bind (T.inl inl_toeol) fun _ =>
    T.nl')) fun _ => T.pure _

theorem tail_T (k : Tail) : T SD (tail k) S0 := by
  have h : ∀ (f : Unit → P Unit), (∀ a, T S0 (f a) S0) → T SD (do let _ ← toeol; nl >>= f) S0 := fun f hf =>
    T.bind (T.inl inl_toeol) fun _ => T.bind T.nl' hf
  cases k
  · exact T.bind (T.inl inLine_ws) fun _ => T.bind (T.inl inl_toeol) fun _ => T.nl'
  · exact T.bind (T.inl inl_toeol) fun _ => T.nl'
  · exact T.bind (T.inl (by inline)) fun _ => T.nl'
  · exact T.nl'
  · exact T.bind (T.inl inLine_ws) fun _ => h _ fun _ => ignoredIndent_T
  · exact h _ fun _ => ignoredIndent_T

theorem T.alts_map {l : List (P α)} {A B : As} (h : ∀ p ∈ l, T A p B) : T A (alts l) B := by
  induction l with
  | nil => exact T.alts_nil
  | cons p l ih => exact T.alts_cons (h p (by simp)) (ih fun q hq => h q (by simp [hq]))

theorem ignored_T : T SX (ignored g) S0 := by
  unfold ignored
  apply T.alts_map
  intro p hp
  obtain ⟨kt, hk, rfl⟩ := List.mem_map.1 hp
  have : ∀ kt ∈ ignoredList, Dead kt.1.toList ∧ '\n' ∉ kt.1.toList := by decide +kernel
  obtain ⟨h1, h2⟩ := this kt hk
  exact T.keyword h1 h2 fun _ => T.bind (tail_T _) fun _ => T.pure _

end Acltk.FwsmText
