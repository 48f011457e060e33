import Verif.Lemmas.IosReadIp
import Verif.Lemmas.FwsmReadFile
/-!
# Reading a whole IOS configuration as written
-/
namespace Acltk.IosText
open Acltk Acltk.Lookup Acltk.Peg Acltk.AclText
open Acltk.FwsmText (St Bare LineRest Aft Sta ip4_read kwWord tok_self toeol_read nl_lf nl_ok word_no_lf blanks_no_lf
  sta_of_line sta_of_bare kw_step kw_no ip6_not_ip4_word NoSp sp_fail sp_cons Indented Skip skip_word tok_char skip_char
  ws_line lineEnd_eow interfaceRef identifier_not_ip4 NameGuard)

variable {tr : Bool} {rest : Text} {g : Guard}

/-! ## the alternatives of a command -/

/-- Only the commands with this keyword may begin here. -/
structure Only (g : Guard) (t : Text) (w : String) : Prop where
  version : tok g "version" t = .fail
  skips : ∀ k ∈ keywords, k ≠ w → Skip g t k

theorem only_word (hg : GuardOk g) {w : String} (hw : Word w) (hv : noTok w "version" = true) {t : Text} (ht : EndOfWord t) :
    Only g (w.toList ++ t) w := by
  refine ⟨noTok_fail hg hv ht, fun k hk h => ?_⟩
  exact skip_word hg hw ht ((by decide : ∀ k ∈ keywords, (k.toList.all (fun c => !isBlank c)) = true) k hk) (Ne.symm h)

theorem only_key (hg : GuardOk g) {w : String} (hw : w ∈ keywords) {t : Text} (ht : EndOfWord t) : Only g (w.toList ++ t) w := by
  have := (by decide +kernel : ∀ w ∈ keywords, noTok w "version" = true ∧
    (!w.toList.isEmpty && w.toList.all (fun c => !isBlank c)) = true) w hw
  exact only_word hg (word_of_decide this.2) this.1 ht

theorem only_char {c : Char} (hc : c ≠ 'v' ∧ ∀ k ∈ keywords, ∀ d ∈ k.toList.head?, d ≠ c) (t : Text) (w : String) :
    Only g (c :: t) w := by
  refine ⟨tok_char (by intro d hd; simp at hd; subst hd; exact Ne.symm hc.1) (by decide), fun k hk _ => ?_⟩
  exact skip_char (hc.2 k hk) ((by decide : ∀ k ∈ keywords, k.toList ≠ []) k hk)

theorem only_nil (w : String) : Only g [] w := by
  have no : ∀ k : String, k.toList ≠ [] → tok g k [] = .fail := by
    intro k hk
    apply tok_prefix
    cases h : k.toList with
    | nil => exact absurd h hk
    | cons c l => rfl
  exact ⟨no _ (by decide), fun k hk _ => fun _ => bind_fail (no k ((by decide : ∀ k ∈ keywords, k.toList ≠ []) k hk))⟩

theorem keep_ok {s : St} {p : P Item} {t r : Text} {i : Item} (h : p t = .ok i r) : keep s p t = .ok (i, s) r := by
  unfold keep; rw [bind_ok h]; rfl

theorem keep_fail {s : St} {p : P Item} {t : Text} (h : p t = .fail) : keep s p t = .fail := bind_fail h

theorem base_ok {p : P FwsmText.Item} {t r : Text} {i : FwsmText.Item} (h : p t = .ok i r) : base p t = .ok (.base i) r := by
  unfold base; rw [bind_ok h]; rfl

theorem base_fail {p : P FwsmText.Item} {t : Text} (h : p t = .fail) : base p t = .fail := bind_fail h

theorem numHead_skip {t : Text} (h : Skip g t "access-list") {i : P (List Char)} {β : Type} (f : String × String → P β) :
    (numHead g i >>= f) t = .fail := by
  apply bind_fail
  unfold numHead
  exact h _

theorem accessList_no {e : Env} {t : Text} (h : Skip e.guard t "access-list") : accessList e t = .fail := by
  have r : numRemark e.guard t = .fail := by unfold numRemark; exact h _
  have ex : numExtended e t = .fail := by
    unfold numExtended
    rw [alt_fail (numHead_skip h _)]
    exact numHead_skip h _
  have st : numStandard e t = .fail := numHead_skip h _
  have rr : ∀ p : P IRule, p t = .fail → remarked (numRemark e.guard) p t = .fail := by
    intro p hp
    unfold remarked
    rw [alt_fail (bind_fail (many1_fail r))]
    exact hp
  unfold accessList
  rw [alt_fail (rr _ ex)]
  exact rr _ st

section
variable {s : St} {t : Text}

theorem version_no {t : Text} (h : tok g "version" t = .fail) : version g t = .fail := bind_fail h
theorem hostname_no {t : Text} (h : Skip g t "hostname") : FwsmText.hostname g t = .fail := FwsmText.hostname_no h
theorem interface_no {t : Text} (h : Skip s.env.guard t "interface") : interface s t = .fail := by unfold interface; exact h _
theorem objectGroup_no {t : Text} (h : Skip s.env.guard t "object-group") : objectGroup s t = .fail := by
  unfold objectGroup; exact h _
theorem ip_no {t : Text} (h : Skip s.env.guard t "ip") : ip s t = .fail := by unfold ip; exact h _
theorem ipv6_no {e : Env} {t : Text} (h : Skip e.guard t "ipv6") : ipv6 e t = .fail := by unfold ipv6; exact h _

theorem ruleCommand_no {e : Env} {t : Text} (h : Skip e.guard t "access-list") : ruleCommand e t = .fail :=
  bind_fail (accessList_no h)

theorem command_version {i : FwsmText.Item} {r : Text} (h : version s.env.guard t = .ok i r) : command s t = .ok (.base i, s) r := by
  unfold command
  exact alts_ok (keep_ok (base_ok h))

theorem command_hostname (o : Only s.env.guard t "hostname") {i : FwsmText.Item} {r : Text}
    (h : FwsmText.hostname s.env.guard t = .ok i r) : command s t = .ok (.base i, s) r := by
  unfold command
  rw [alts_fail (keep_fail (base_fail (version_no o.version)))]
  exact alts_ok (keep_ok (base_ok h))

theorem command_domain (o : Only s.env.guard t "domain-name") {i : FwsmText.Item} {r : Text}
    (h : FwsmText.domainName s.env.guard t = .ok i r) : command s t = .ok (.base i, s) r := by
  unfold command
  rw [alts_fail (keep_fail (base_fail (version_no o.version))),
    alts_fail (keep_fail (base_fail (FwsmText.hostname_no (o.skips _ (by decide) (by decide)))))]
  exact alts_ok (keep_ok (base_ok h))

theorem command_interface (o : Only s.env.guard t "interface") {x : Item × St} {r : Text}
    (h : interface s t = .ok x r) : command s t = .ok x r := by
  unfold command
  rw [alts_fail (keep_fail (base_fail (version_no o.version))),
    alts_fail (keep_fail (base_fail (FwsmText.hostname_no (o.skips _ (by decide) (by decide))))),
    alts_fail (keep_fail (base_fail (FwsmText.domainName_no (o.skips _ (by decide) (by decide)))))]
  exact alts_ok h

theorem command_objectGroup (o : Only s.env.guard t "object-group") {x : Item × St} {r : Text}
    (h : objectGroup s t = .ok x r) : command s t = .ok x r := by
  unfold command
  rw [alts_fail (keep_fail (base_fail (version_no o.version))),
    alts_fail (keep_fail (base_fail (FwsmText.hostname_no (o.skips _ (by decide) (by decide))))),
    alts_fail (keep_fail (base_fail (FwsmText.domainName_no (o.skips _ (by decide) (by decide))))),
    alts_fail (interface_no (o.skips _ (by decide) (by decide)))]
  exact alts_ok h

theorem command_rule (o : Only s.env.guard t "access-list") {x : IRule} {r : Text}
    (h : accessList s.env t = .ok x r) : command s t = .ok (.rule x, s) r := by
  unfold command
  rw [alts_fail (keep_fail (base_fail (version_no o.version))),
    alts_fail (keep_fail (base_fail (FwsmText.hostname_no (o.skips _ (by decide) (by decide))))),
    alts_fail (keep_fail (base_fail (FwsmText.domainName_no (o.skips _ (by decide) (by decide))))),
    alts_fail (interface_no (o.skips _ (by decide) (by decide))),
    alts_fail (objectGroup_no (o.skips _ (by decide) (by decide)))]
  exact alts_ok (keep_ok (bind_ok h))

theorem command_ip (o : Only s.env.guard t "ip") {x : Item} {r : Text}
    (h : ip s t = .ok x r) : command s t = .ok (x, s) r := by
  unfold command
  rw [alts_fail (keep_fail (base_fail (version_no o.version))),
    alts_fail (keep_fail (base_fail (FwsmText.hostname_no (o.skips _ (by decide) (by decide))))),
    alts_fail (keep_fail (base_fail (FwsmText.domainName_no (o.skips _ (by decide) (by decide))))),
    alts_fail (interface_no (o.skips _ (by decide) (by decide))),
    alts_fail (objectGroup_no (o.skips _ (by decide) (by decide))),
    alts_fail (keep_fail (ruleCommand_no (o.skips _ (by decide) (by decide))))]
  exact alts_ok (keep_ok h)

theorem command_ipv6 (o : Only s.env.guard t "ipv6") {x : Item} {r : Text}
    (h : ipv6 s.env t = .ok x r) : command s t = .ok (x, s) r := by
  unfold command
  rw [alts_fail (keep_fail (base_fail (version_no o.version))),
    alts_fail (keep_fail (base_fail (FwsmText.hostname_no (o.skips _ (by decide) (by decide))))),
    alts_fail (keep_fail (base_fail (FwsmText.domainName_no (o.skips _ (by decide) (by decide))))),
    alts_fail (interface_no (o.skips _ (by decide) (by decide))),
    alts_fail (objectGroup_no (o.skips _ (by decide) (by decide))),
    alts_fail (keep_fail (ruleCommand_no (o.skips _ (by decide) (by decide)))),
    alts_fail (keep_fail (ip_no (o.skips _ (by decide) (by decide))))]
  exact alts_ok (keep_ok h)

theorem command_last {w : String} (o : Only s.env.guard t w) (hw : w ∉ keywords) :
    command s t = alts [keep s (ignoredCommand s.env.guard)] t := by
  have no : ∀ k ∈ keywords, Skip s.env.guard t k := fun k hk => o.skips k hk (by rintro rfl; exact hw hk)
  unfold command
  rw [alts_fail (keep_fail (base_fail (version_no o.version))),
    alts_fail (keep_fail (base_fail (FwsmText.hostname_no (no _ (by decide))))),
    alts_fail (keep_fail (base_fail (FwsmText.domainName_no (no _ (by decide))))),
    alts_fail (interface_no (no _ (by decide))),
    alts_fail (objectGroup_no (no _ (by decide))),
    alts_fail (keep_fail (ruleCommand_no (no _ (by decide)))),
    alts_fail (keep_fail (ip_no (no _ (by decide)))),
    alts_fail (keep_fail (ipv6_no (no _ (by decide))))]

theorem command_ignored {w : String} (o : Only s.env.guard t w) (hw : w ∉ keywords) {r : Text} (h : ignored s.env.guard t = .ok () r) :
    command s t = .ok (.base .nothing, s) r := by
  rw [command_last o hw]
  exact alts_ok (keep_ok (bind_ok h))

theorem command_none {w : String} (o : Only s.env.guard t w) (hw : w ∉ keywords) (h : ignored s.env.guard t = .fail) :
    command s t = .fail := by
  rw [command_last o hw, alts_fail (keep_fail (show ignoredCommand _ _ = .fail from bind_fail h))]
  rfl

end

theorem command_blank {s : St} {n : Text} (hn : n = ['\n'] ∨ n = ['\r', '\n']) (rest : Text) :
    command s (n ++ rest) = .ok (.base .nothing, s) rest := by
  rcases hn with rfl | rfl
  · refine command_ignored (w := "") (only_char (c := '\n') (by decide) _ _) (by decide) ?_
    exact (ignored_char (Or.inl rfl) _).trans (nl_ok (Or.inl rfl))
  · refine command_ignored (w := "") (only_char (c := '\r') (by decide) _ _) (by decide) ?_
    exact (ignored_char (Or.inr rfl) _).trans (nl_ok (n := ['\r', '\n']) (Or.inr rfl))

/-! ## how commands begin -/

theorem noSp_char {c : Char} {t : Text} (h : c ≠ ' ') : NoSp (c :: t) := by
  intro d hd; simp at hd; subst hd; exact h

theorem noSp_word {w : String} (hw : Word w) (t : Text) : NoSp (w.toList ++ t) := (FwsmText.startOK_word hw t).1

theorem numRemarks_start {t : List Char} {rs : List (List Char)} (h : NumRemarks t rs) (hne : rs ≠ []) :
    ∃ u, t = "access-list".toList ++ u ∧ ∀ v, EndOfWord (u ++ v) := by
  cases h with
  | nil => exact absurd rfl hne
  | cons i h b r t rs hi hs hb hb' hr hh _ =>
    obtain ⟨x, y, n1, b1, n2, b2, rfl⟩ := spaced_three hs
    refine ⟨x ++ (i.toList ++ (y ++ ("remark".toList ++ (b ++ (r ++ '\n' :: t))))), by simp only [List.append_assoc], fun v => ?_⟩
    rw [List.append_assoc]; exact blanks_end n1 b1

theorem numRule_first {e : Env} {wl : List String} {r : IRule} (h : NumRule e wl r) :
    ∃ i w l, wl = "access-list" :: i :: w :: l ∧ Word i := by
  cases h with
  | extended i ws r hi hb =>
    obtain ⟨m, l, rfl, -⟩ := extBody_first hb
    exact ⟨i, m, l, rfl, (extNumber_idWord hi).word⟩
  | standard i ws r hi hb =>
    obtain ⟨m, l, rfl, -⟩ := stdBody_first hb
    exact ⟨i, m, l, rfl, (stdNumber_idWord hi).word⟩

/-- A command begins with one of the keywords and a blank, or with another word, or with a line end. -/
theorem cmd_begin {s s' : St} {t : List Char} {is : List Item} (h : Cmd s t is s') :
    (∃ w u, Word w ∧ t = w.toList ++ u) ∨ ∃ c u, (c = '\n' ∨ c = '\r') ∧ t = c :: u := by
  have kb : ∀ {k : String} {wl : List String} {l : List Char} (v : Text), Bare (k :: wl) l → Word k →
      ∃ w u, Word w ∧ l ++ v = w.toList ++ u := fun v hl hk => by
    obtain ⟨t', h, -⟩ := sta_of_bare (rest := v) hl
    exact ⟨_, t', hk, h⟩
  have kl : ∀ {k : String} {wl : List String} {l : List Char} (v : Text), Line (k :: wl) l → Word k →
      ∃ w u, Word w ∧ l ++ v = w.toList ++ u := fun v hl hk => by
    obtain ⟨t', h, -⟩ := sta_of_line (rest := v) hl
    exact ⟨_, t', hk, h⟩
  have wd : ∀ (k : String) (u : List Char), (!k.toList.isEmpty && k.toList.all (fun c => !isBlank c)) = true →
      ∃ w v, Word w ∧ k.toList ++ u = w.toList ++ v := fun k u hk => ⟨k, u, kwWord hk, rfl⟩
  have kb0 : ∀ {k : String} {wl : List String} {l : List Char}, Bare (k :: wl) l → Word k →
      ∃ w u, Word w ∧ l = w.toList ++ u := fun hl hk => by simpa using kb [] hl hk
  cases h with
  | version u hu => exact Or.inl (wd _ _ (by decide))
  | hostname w _ hw hl => exact Or.inl (kb0 hl (kwWord (by decide)))
  | domain w _ hw hl => exact Or.inl (kb0 hl (kwWord (by decide)))
  | ipDomain w b b' n hw h1 h2 h3 h4 hn => exact Or.inl (wd _ _ (by decide))
  | interface w l t vs i hw hl ht hi => exact Or.inl (kb _ hl (kwWord (by decide)))
  | netGroup n l dt t d vs hn hl hd hm => exact Or.inl (kl _ hl (kwWord (by decide)))
  | portGroup n p l dt t d vs hn hp hl hd hm => exact Or.inl (kl _ hl (kwWord (by decide)))
  | svcGroup n l dt t d vs hn hl hd hm => exact Or.inl (kl _ hl (kwWord (by decide)))
  | icmpGroup n l dt t d vs hn hl hd hm => exact Or.inl (kl _ hl (kwWord (by decide)))
  | protoGroup n l dt t d vs hn hl hd hm => exact Or.inl (kl _ hl (kwWord (by decide)))
  | rule rt l rs ws r hrt hw hl =>
    by_cases hne : rs = []
    · subst hne
      cases hrt
      obtain ⟨i, w, wl, rfl, -⟩ := numRule_first hw
      exact Or.inl (kb0 hl (kwWord (by decide)))
    · obtain ⟨u, rfl, -⟩ := numRemarks_start hrt hne
      rw [List.append_assoc]
      exact Or.inl (wd _ _ (by decide))
  | extended n l t rs hn hl he => exact Or.inl (kb _ hl (kwWord (by decide)))
  | standard n l t rs hn hl he => exact Or.inl (kb _ hl (kwWord (by decide)))
  | ipv6List n l t rs hn hl he hne => exact Or.inl (kb _ hl (kwWord (by decide)))
  | route w m v x q p n gw _ hx hw hq hm hmt hn he hgw hl => exact Or.inl (kb0 hl (kwWord (by decide)))
  | routeMore w m v x q gw h u c hx hw hq hm hgw hs hc hu =>
    obtain ⟨y, rfl⟩ := FwsmText.spaced_first hs
    rw [List.append_assoc]
    exact Or.inl (wd _ _ (by decide))
  | routeUnknown w m v x q h u hx hw hq hm hv hd hk hs hu =>
    obtain ⟨y, rfl⟩ := FwsmText.spaced_first hs
    rw [List.append_assoc]
    exact Or.inl (wd _ _ (by decide))
  | ipDomainIgnored b u h1 h2 hu hh hn => exact Or.inl (wd _ _ (by decide))
  | excluded b u h1 h2 hu => exact Or.inl (wd _ _ (by decide))
  | ipIgnored k f b u hk h1 h2 hu => exact Or.inl (wd _ _ (by decide))
  | pool b l v h1 h2 hl hne hh hv => exact Or.inl (wd _ _ (by decide))
  | ipv6Routing b u h1 h2 hu => exact Or.inl (wd _ _ (by decide))
  | ipv6Ignored k b b' u hk h1 h2 h3 h4 hu hh => exact Or.inl (wd _ _ (by decide))
  | banner b b' m d n h1 h2 h3 h4 hd hd' hm hn => exact Or.inl (wd _ _ (by decide))
  | bannerCaret b b' m n h1 h2 h3 h4 hm hn => exact Or.inl (wd _ _ (by decide))
  | defineRange b u h1 h2 hu => exact Or.inl (wd _ _ (by decide))
  | ignored k f u hk hc hu => exact Or.inl ⟨k, u, (ignoredForms_words _ hk).1, rfl⟩
  | comment k u hk hu =>
    simp only [List.mem_cons, List.not_mem_nil, or_false] at hk
    rcases hk with rfl | rfl | rfl
    · exact Or.inl (wd _ _ (by decide))
    · exact Or.inl (wd _ _ (by decide))
    · refine Or.inl ⟨"Current", " configuration".toList ++ (u ++ ['\n']), kwWord (by decide), by simp⟩
  | blank n hn =>
    rcases hn with rfl | rfl
    · exact Or.inr ⟨'\n', [], Or.inl rfl, rfl⟩
    · exact Or.inr ⟨'\r', ['\n'], Or.inr rfl, rfl⟩

theorem cmd_start {s s' : St} {t : List Char} {is : List Item} (h : Cmd s t is s') (rest : Text) : NoSp (t ++ rest) := by
  rcases cmd_begin h with ⟨w, u, hw, rfl⟩ | ⟨c, u, hc, rfl⟩
  · rw [List.append_assoc]; exact noSp_word hw _
  · exact noSp_char (by rcases hc with rfl | rfl <;> decide)

theorem ends_start {e : List Char} (h : Ends e) : NoSp e := by
  cases h with
  | eof => intro c hc; simp at hc
  | word k u hk hu =>
    refine noSp_word ?_ _
    simp only [List.mem_cons, List.not_mem_nil, or_false] at hk
    rcases hk with rfl | rfl <;> exact kwWord (by decide)

theorem file_start {s s' : St} {t : List Char} {is : List Item} (h : File s t is s') {e : List Char} (he : NoSp e) :
    NoSp (t ++ e) := by
  cases h with
  | nil => exact he
  | cmd _ s' _ t u is js hc _ => rw [List.append_assoc]; exact cmd_start hc _

/-! ## what is known stays well formed -/

/-- What holds before every command. -/
structure Good (s : St) : Prop where
  wf : s.env.WF
  names : s.env.names = []
  ifaces : IfacesOk s
  guard : NameGuard s.env.guard

theorem cmd_good {s s' : St} {t : List Char} {is : List Item} (h : Cmd s t is s') (hs : Good s) : Good s' := by
  have he := hs.wf
  cases h with
  | interface w l t vs i hw hl ht hi => exact { hs with ifaces := FwsmText.dSet_all hs.ifaces hw i }
  | netGroup n l dt t d vs hn hl hd hm =>
    exact { hs with wf := { he with netGroups := FwsmText.dSet_all he.netGroups hn.word _ } }
  | portGroup n p l dt t d vs hn hp hl hd hm =>
    exact { hs with wf := { he with portGroups := FwsmText.dSet_all he.portGroups hn.word _ } }
  | svcGroup n l dt t d vs hn hl hd hm =>
    exact { hs with wf := { he with svcGroups := FwsmText.dSet_all he.svcGroups hn.word _ } }
  | icmpGroup n l dt t d vs hn hl hd hm =>
    exact { hs with wf := { he with icmpGroups := FwsmText.dSet_all he.icmpGroups hn.word _ } }
  | protoGroup n l dt t d vs hn hl hd hm =>
    exact { hs with wf := { he with protoGroups := FwsmText.dSet_all he.protoGroups hn.word _ } }
  | _ => exact hs

/-! ## one command -/

/-- One command, in the shape the parser gives it. -/
inductive Steps : St → Text → List Item → St → Text → Prop
  | one {s s' : St} {t r : Text} {i : Item} : command s t = .ok (i, s') r → r.length < t.length → Steps s t [i] s' r
  | two {s s' s'' : St} {t r u : Text} {i j : Item} : command s t = .ok (i, s') r → r.length < t.length →
      command s' r = .ok (j, s'') u → u.length < r.length → Steps s t [i, j] s'' u

theorem commands_step {s s' s'' : St} {t r u : Text} {i : Item} {l : List Item} (h : command s t = .ok (i, s') r)
    (hl : r.length < t.length) (hr : commands s' r = .ok (l, s'') u) : commands s t = .ok (i :: l, s'') u := by
  rw [commands, h]
  simp only
  rw [if_pos hl, hr]

theorem Steps.commands {s s' s'' : St} {t r u : Text} {is js : List Item} (h : Steps s t is s' r)
    (hr : commands s' r = .ok (js, s'') u) : commands s t = .ok (is ++ js, s'') u := by
  cases h with
  | one h1 h2 => exact commands_step h1 h2 hr
  | two h1 h2 h3 h4 => exact commands_step h1 h2 (commands_step h3 h4 hr)

theorem cmd_read {s s' : St} {t : List Char} {is : List Item} (h : Cmd s t is s') (hs : Good s) (hr : NoSp rest) :
    ∃ is', SameItems is is' ∧ Steps s (t ++ rest) is' s' rest := by
  have he := hs.wf
  have hg := he.guardOk
  have ng := hs.guard
  have same1 : ∀ i : Item, SameItems [i] [i] := fun i => .cons _ _ _ _ (.other i) .nil
  have same2 : ∀ i j : Item, SameItems [i, j] [i, j] := fun i j => .cons _ _ _ _ (.other i) (same1 j)
  have short : ∀ {k : String} {a : List Char} (b : List Char), (∃ v, a ++ b = k.toList ++ v) → k.toList ≠ [] →
      rest.length ≤ b.length → rest.length < (k.toList ++ b).length := by
    intro k a b _ hk hb
    have := List.length_pos_iff.2 hk
    simp only [List.length_append]; omega
  -- one command of a known keyword, written as a line and more lines
  have lineB : ∀ {k w : String} {wl : List String} {l : List Char} (v : Text), Bare (k :: w :: wl) l → k ∈ keywords →
      Only s.env.guard (l ++ v) k := by
    intro k w wl l v hl hk
    obtain ⟨t', h1, h2⟩ := sta_of_bare (rest := v) hl
    rw [h1]
    exact only_key hg hk h2.eow
  have lineL : ∀ {k w : String} {wl : List String} {l : List Char} (v : Text), Line (k :: w :: wl) l → k ∈ keywords →
      Only s.env.guard (l ++ v) k := by
    intro k w wl l v hl hk
    obtain ⟨t', h1, h2⟩ := sta_of_line (rest := v) hl
    rw [h1]
    exact only_key hg hk h2.eow
  have lenB : ∀ {k : String} {wl : List String} {l : List Char} (v : Text), Bare (k :: wl) l → Word k →
      rest.length < (l ++ (v ++ rest)).length := by
    intro k wl l v hl hk
    have := FwsmText.sta_length hk (sta_of_bare (rest := v ++ rest) hl)
    simp only [List.length_append] at this ⊢
    omega
  have lenL : ∀ {k : String} {wl : List String} {l : List Char} (v : Text), Line (k :: wl) l → Word k →
      rest.length < (l ++ (v ++ rest)).length := by
    intro k wl l v hl hk
    have := FwsmText.sta_length hk (sta_of_line (rest := v ++ rest) hl)
    simp only [List.length_append] at this ⊢
    omega
  cases h with
  | version u hu =>
    refine ⟨_, same1 _, .one (r := rest) (command_version ?_) (by simp; omega)⟩
    have et : "version".toList ++ (u ++ ['\n']) ++ rest = "version".toList ++ (u ++ '\n' :: rest) := by simp
    rw [et]
    unfold version
    rw [bind_ok (tok_self hg (by decide) (by simpa using hu.eow rest)), bind_ok (toeol_read hu.1 rest)]
    rfl
  | hostname w _ hw hl =>
    exact ⟨_, same1 _, .one (command_hostname (lineB _ hl (by decide)) (FwsmText.hostname_read hg hw hl rest))
      (by simpa using lenB [] hl (kwWord (by decide)))⟩
  | domain w _ hw hl =>
    obtain ⟨c, n, hc, hln, hn, hd⟩ := FwsmText.domain_read hg hw hl rest
    refine ⟨_, same2 _ _, .two (command_domain (lineB _ hl (by decide)) hd) ?_ (command_blank hn rest)
      (by rcases hn with rfl | rfl <;> (simp; try omega))⟩
    rw [hln]
    have := List.length_pos_iff.2 hc
    simp only [List.length_append]
    omega
  | ipDomain w b b' n hw h1 h2 h3 h4 hn =>
    have et : "ip".toList ++ (b ++ ("domain name".toList ++ (b' ++ (w.toList ++ n)))) ++ rest =
      "ip".toList ++ (b ++ ("domain name".toList ++ (b' ++ (w.toList ++ (n ++ rest))))) := by simp only [List.append_assoc]
    rw [et]
    refine ⟨_, same2 _ _, .two (command_ip (only_key hg (by decide) (blanks_end h1 h2))
      (ipDomain_read hg ng.symbols hw h1 h2 h3 h4 (lineEnd_eow hn rest))) (by simp; omega) (command_blank hn rest)
      (by rcases hn with rfl | rfl <;> (simp; try omega))⟩
  | interface w l t vs i hw hl ht hi =>
    rw [List.append_assoc]
    exact ⟨_, same1 _, .one (command_interface (lineB _ hl (by decide)) (interface_read hg hw hl ht hi hr))
      (lenB _ hl (kwWord (by decide)))⟩
  | netGroup n l dt t d vs hn hl hd hm =>
    have hn' := netGroup_read he hs.names hn hl hd hm hr
    rw [List.append_assoc, List.append_assoc]
    exact ⟨_, same1 _, .one (command_objectGroup (lineL _ hl (by decide)) hn')
      (by simpa using lenL (dt ++ t) hl (kwWord (by decide)))⟩
  | portGroup n p l dt t d vs hn hp hl hd hm =>
    have hn' := portGroup_read he hn hp hl hd hm hr
    rw [List.append_assoc, List.append_assoc]
    exact ⟨_, same1 _, .one (command_objectGroup (lineL _ hl (by decide)) hn')
      (by simpa using lenL (dt ++ t) hl (kwWord (by decide)))⟩
  | svcGroup n l dt t d vs hn hl hd hm =>
    have hn' := svcGroup_read he hn hl hd hm hr
    rw [List.append_assoc, List.append_assoc]
    exact ⟨_, same1 _, .one (command_objectGroup (lineL _ hl (by decide)) hn')
      (by simpa using lenL (dt ++ t) hl (kwWord (by decide)))⟩
  | icmpGroup n l dt t d vs hn hl hd hm =>
    have hn' := icmpGroup_read he hn hl hd hm hr
    rw [List.append_assoc, List.append_assoc]
    exact ⟨_, same1 _, .one (command_objectGroup (lineL _ hl (by decide)) hn')
      (by simpa using lenL (dt ++ t) hl (kwWord (by decide)))⟩
  | protoGroup n l dt t d vs hn hl hd hm =>
    have hn' := protoGroup_read he hn hl hd hm hr
    rw [List.append_assoc, List.append_assoc]
    exact ⟨_, same1 _, .one (command_objectGroup (lineL _ hl (by decide)) hn')
      (by simpa using lenL (dt ++ t) hl (kwWord (by decide)))⟩
  | rule rt l rs ws r hrt hw hl =>
    obtain ⟨d, h1, h2⟩ := accessList_read he hrt hw hl rest
    rw [List.append_assoc]
    refine ⟨[.rule { r with options := d, remark := rs }], .cons _ _ _ _ (.rule _ _ ⟨h1, rfl⟩) .nil, .one (command_rule ?_ h2) ?_⟩
    · by_cases hne : rs = []
      · subst hne
        cases hrt
        obtain ⟨i, w, wl, rfl, -⟩ := numRule_first hw
        exact lineB (l := l) rest hl (by decide)
      · obtain ⟨u, rfl, hu⟩ := numRemarks_start hrt hne
        rw [List.append_assoc]
        exact only_key hg (by decide) (hu _)
    · obtain ⟨i, w, wl, rfl, -⟩ := numRule_first hw
      have := lenB [] hl (kwWord (by decide))
      simp only [List.length_append, List.nil_append] at this ⊢
      omega
  | extended n l t rs hn hl hE =>
    obtain ⟨rs', h1, h2⟩ := ipList_read hg (kwWord (by decide)) hl (fun u hu => ipExtended_read he hn hE hr hu)
    rw [List.append_assoc]
    exact ⟨_, .cons _ _ _ _ (.rules _ _ h1) .nil, .one (command_ip (lineB _ hl (by decide)) h2) (lenB _ hl (kwWord (by decide)))⟩
  | standard n l t rs hn hl hE =>
    obtain ⟨rs', h1, h2⟩ := ipList_read hg (kwWord (by decide)) hl (fun u hu => ipStandard_read he hn hE hr hu)
    rw [List.append_assoc]
    exact ⟨_, .cons _ _ _ _ (.rules _ _ h1) .nil, .one (command_ip (lineB _ hl (by decide)) h2) (lenB _ hl (kwWord (by decide)))⟩
  | ipv6List n l t rs hn hl hE hne =>
    obtain ⟨rs', h1, h2⟩ := ipv6List_read he hn hl hE hne hr
    rw [List.append_assoc]
    exact ⟨_, .cons _ _ _ _ (.rules _ _ h1) .nil, .one (command_ipv6 (lineB _ hl (by decide)) h2) (lenB _ hl (kwWord (by decide)))⟩
  | route w m v x q p n gw _ hx hw hq hm hmt hn heq hgw hl =>
    exact ⟨_, same1 _, .one (command_ip (lineB _ hl (by decide)) (route_read hg hs.ifaces hx hw hq hm hmt hn heq hgw hl rest))
      (by simpa using lenB [] hl (kwWord (by decide)))⟩
  | routeMore w m v x q gw h u c hx hw hq hm hgw hsp hc hu =>
    obtain ⟨y, h1, h2, -⟩ := ip_route hg hx hw hq hm (gateway_word hs.ifaces hgw) hsp (c :: (u ++ '\n' :: rest))
    have et : h ++ (c :: (u ++ ['\n'])) ++ rest = h ++ (c :: (u ++ '\n' :: rest)) := by simp
    rw [et]
    refine ⟨_, same1 _, .one (command_ip ?_ (routeMore_read hg hs.ifaces hx hw hq hm hgw hsp hc hu rest)) (by simp; omega)⟩
    rw [h1]
    exact only_key hg (by decide) h2
  | routeUnknown w m v x q h u hx hw hq hm hv hd hk hsp hu =>
    obtain ⟨y, h1, h2, -⟩ := ip_route hg hx hw hq hm hv hsp (u ++ '\n' :: rest)
    have et : h ++ (u ++ ['\n']) ++ rest = h ++ (u ++ '\n' :: rest) := by simp
    rw [et]
    refine ⟨_, same1 _, .one (command_ip ?_ (routeUnknown_read hg hs.ifaces hx hw hq hm hv hd hk hsp hu rest)) (by simp; omega)⟩
    rw [h1]
    exact only_key hg (by decide) h2
  | ipDomainIgnored b u h1 h2 hu hh hn =>
    have et : "ip".toList ++ (b ++ ("domain".toList ++ (u ++ ['\n']))) ++ rest =
      "ip".toList ++ (b ++ ("domain".toList ++ (u ++ '\n' :: rest))) := by simp
    rw [et]
    exact ⟨_, same1 _, .one (command_ip (only_key hg (by decide) (blanks_end h1 h2))
      (ipDomainIgnored_read hg h1 h2 hu hh hn rest)) (by simp; omega)⟩
  | excluded b u h1 h2 hu =>
    have et : "ip".toList ++ (b ++ ("dhcp excluded-address".toList ++ (u ++ ['\n']))) ++ rest =
      "ip".toList ++ (b ++ ("dhcp excluded-address".toList ++ (u ++ '\n' :: rest))) := by simp
    rw [et]
    exact ⟨_, same1 _, .one (command_ip (only_key hg (by decide) (blanks_end h1 h2))
      (dhcp_read hg ng.symbols (Or.inl ⟨rfl, rfl⟩) h1 h2 (tailEol_read hu rest))) (by simp; omega)⟩
  | ipIgnored k f b u hk h1 h2 hu =>
    have et : "ip".toList ++ (b ++ (k.toList ++ u)) ++ rest = "ip".toList ++ (b ++ (k.toList ++ (u ++ rest))) := by
      simp only [List.append_assoc]
    rw [et]
    exact ⟨_, same1 _, .one (command_ip (only_key hg (by decide) (blanks_end h1 h2)) (ipIgnored_read hg hk h1 h2 hu hr))
      (by simp; omega)⟩
  | pool b l v h1 h2 hl hne hh hv =>
    have et : "ip".toList ++ (b ++ ("dhcp pool".toList ++ (l ++ ('!' :: (v ++ ['\n']))))) ++ rest =
      "ip".toList ++ (b ++ ("dhcp pool".toList ++ (l ++ ('!' :: (v ++ '\n' :: rest))))) := by simp
    rw [et]
    refine ⟨_, same2 _ _, .two (command_ip (only_key hg (by decide) (blanks_end h1 h2))
      (dhcp_read hg ng.symbols (Or.inr ⟨rfl, rfl⟩) h1 h2 (pool_read hl _))) (by simp; omega)
      (command_ignored (w := "") (only_char (c := '!') (by decide) _ _) (by decide)
        (comment_read ng.symbols (k := "!") (by decide) hv rest)) (by simp; omega)⟩
  | ipv6Routing b u h1 h2 hu =>
    have et : "ipv6".toList ++ (b ++ ("unicast-routing".toList ++ (u ++ ['\n']))) ++ rest =
      "ipv6".toList ++ (b ++ ("unicast-routing".toList ++ (u ++ '\n' :: rest))) := by simp
    rw [et]
    exact ⟨_, same2 _ _, .two (command_ipv6 (only_key hg (by decide) (blanks_end h1 h2)) (ipv6Routing_read hg h1 h2 hu rest))
      (by simp; omega) (command_blank (n := ['\n']) (Or.inl rfl) rest) (by simp)⟩
  | ipv6Ignored k b b' u hk h1 h2 h3 h4 hu hh =>
    have et : "ipv6".toList ++ (b ++ (k.toList ++ (b' ++ (u ++ ['\n'])))) ++ rest =
      "ipv6".toList ++ (b ++ (k.toList ++ (b' ++ (u ++ '\n' :: rest)))) := by simp
    rw [et]
    exact ⟨_, same2 _ _, .two (command_ipv6 (only_key hg (by decide) (blanks_end h1 h2))
      (ipv6Ignored_read hg hk h1 h2 h3 h4 hu hh rest)) (by simp; omega) (command_blank (n := ['\n']) (Or.inl rfl) rest) (by simp)⟩
  | banner b b' m d n h1 h2 h3 h4 hd hd' hm hn =>
    have et : "banner".toList ++ (b ++ ("motd".toList ++ (b' ++ (d :: (m ++ (d :: n)))))) ++ rest =
      "banner".toList ++ (b ++ ("motd".toList ++ (b' ++ (d :: (m ++ (d :: (n ++ rest))))))) := by simp
    rw [et]
    exact ⟨_, same1 _, .one (command_ignored (w := "banner") (only_word hg (kwWord (by decide)) (by decide +kernel) (blanks_end h1 h2))
      (by decide) (bannerChar_read hg h1 h2 h3 h4 hd hd' hm hn)) (by simp; omega)⟩
  | bannerCaret b b' m n h1 h2 h3 h4 hm hn =>
    have et : "banner".toList ++ (b ++ ("motd".toList ++ (b' ++ ('^' :: 'C' :: (m ++ ('^' :: 'C' :: n)))))) ++ rest =
      "banner".toList ++ (b ++ ("motd".toList ++ (b' ++ ('^' :: 'C' :: (m ++ ('^' :: 'C' :: (n ++ rest))))))) := by simp
    rw [et]
    exact ⟨_, same1 _, .one (command_ignored (w := "banner") (only_word hg (kwWord (by decide)) (by decide +kernel) (blanks_end h1 h2))
      (by decide) (bannerCaret_read hg ng.symbols h1 h2 h3 h4 hm hn)) (by simp; omega)⟩
  | defineRange b u h1 h2 hu =>
    have et : "define".toList ++ (b ++ ("interface-range".toList ++ (u ++ ['\n']))) ++ rest =
      "define".toList ++ (b ++ ("interface-range".toList ++ (u ++ '\n' :: rest))) := by simp
    rw [et]
    exact ⟨_, same1 _, .one (command_ignored (w := "define") (only_word hg (kwWord (by decide)) (by decide +kernel) (blanks_end h1 h2))
      (by decide) (define_read hg ng.symbols h1 h2 hu rest)) (by simp; omega)⟩
  | ignored k f u hk hc hu =>
    obtain ⟨wk, nk, vk⟩ := ignoredForms_words _ hk
    rw [List.append_assoc]
    refine ⟨_, same1 _, .one (command_ignored (only_word hg wk vk (tail_eow hu rest)) nk (ignored_read hg hk hu hr)) ?_⟩
    have : 0 < k.toList.length := List.length_pos_iff.2 wk.1
    simp only [List.length_append]; omega
  | comment k u hk hu =>
    have et : k.toList ++ (u ++ ['\n']) ++ rest = k.toList ++ (u ++ '\n' :: rest) := by simp
    rw [et]
    refine ⟨_, same1 _, .one (command_ignored (w := "") ?_ (by decide) (comment_read ng.symbols hk hu rest)) (by simp; omega)⟩
    simp only [List.mem_cons, List.not_mem_nil, or_false] at hk
    rcases hk with rfl | rfl | rfl
    · exact only_char (c := ':') (by decide) _ _
    · exact only_char (c := '!') (by decide) _ _
    · exact only_char (c := 'C') (by decide) _ _
  | blank n hn => exact ⟨_, same1 _, .one (command_blank hn rest) (by rcases hn with rfl | rfl <;> (simp; try omega))⟩

/-! ## the whole text -/

theorem command_ends {s : St} (hg : GuardOk s.env.guard) {e : List Char} (h : Ends e) : command s e = .fail := by
  cases h with
  | eof =>
    refine command_none (w := "") (only_nil _) (by decide) ?_
    have no : ∀ k : String, k.toList ≠ [] → tok s.env.guard k [] = .fail := by
      intro k hk
      apply tok_prefix
      cases h : k.toList with
      | nil => exact absurd h hk
      | cons c l => rfl
    have l2 : ∀ l ∈ [ignored1, ignored2, ignored3, ignored4], ignoredOf s.env.guard l [] = .fail := by
      intro l hl
      apply ignoredOf_no
      intro kt hkt
      exact no _ ((by decide +kernel : ∀ l ∈ [ignored1, ignored2, ignored3, ignored4], ∀ kt ∈ l, kt.1.toList ≠ []) l hl kt hkt)
    have hb : banner s.env.guard [] = .fail := bind_fail (no _ (by decide))
    have hd : defineRange s.env.guard [] = .fail := bind_fail (no _ (by decide))
    have hu : usingLine s.env.guard [] = .fail := bind_fail (no _ (by decide))
    unfold ignored
    rw [alts_fail (l2 _ (by simp)), alts_fail hb, alts_fail (l2 _ (by simp)),
      alts_fail hd, alts_fail (l2 _ (by simp)), alts_fail hu, alts_fail (l2 _ (by simp))]
    rfl
  | word k u hk hu =>
    have ht : EndOfWord u := hu
    have hw : Word k := mem_word (by decide) hk
    have hn := (by decide +kernel : ∀ k ∈ ["line", "end"], noTok k "version" = true ∧ k ∉ keywords ∧ noTok k "banner" = true ∧
      noTok k "define" = true ∧ noTok k "Using" = true ∧
      ∀ l ∈ [ignored1, ignored2, ignored3, ignored4], (l.all (fun kt => noTok k kt.1)) = true) k hk
    obtain ⟨n1, n2, n3, n4, n5, n6⟩ := hn
    refine command_none (only_word hg hw n1 ht) n2 ?_
    unfold ignored
    rw [alts_fail (ignoredOf_noTok hg (n6 _ (by simp)) ht), alts_fail (banner_no hg n3 ht),
      alts_fail (ignoredOf_noTok hg (n6 _ (by simp)) ht), alts_fail (defineRange_no hg n4 ht),
      alts_fail (ignoredOf_noTok hg (n6 _ (by simp)) ht), alts_fail (usingLine_no hg n5 ht),
      alts_fail (ignoredOf_noTok hg (n6 _ (by simp)) ht)]
    have : nl (k.toList ++ u) = .fail := by
      simp only [List.mem_cons, List.not_mem_nil, or_false] at hk
      rcases hk with rfl | rfl <;> rfl
    rw [alts_fail this]
    rfl

theorem commands_ends {s : St} (hg : GuardOk s.env.guard) {e : List Char} (h : Ends e) : commands s e = .ok ([], s) e := by
  rw [commands, command_ends hg h]

theorem sameItems_append {a b c d : List Item} (h : SameItems a b) (h' : SameItems c d) : SameItems (a ++ c) (b ++ d) := by
  induction h with
  | nil => exact h'
  | cons i j is js h _ ih => exact .cons _ _ _ _ h ih

theorem file_read {s s' : St} {t : List Char} {is : List Item} (h : File s t is s') (hs : Good s) {e : List Char} (he : Ends e) :
    ∃ is', SameItems is is' ∧ commands s (t ++ e) = .ok (is', s') e := by
  induction h with
  | nil s => exact ⟨[], .nil, commands_ends hs.wf.guardOk he⟩
  | cmd s s' s'' t u is js hc hf ih =>
    obtain ⟨js', j1, j2⟩ := ih (cmd_good hc hs)
    obtain ⟨is', i1, i2⟩ := cmd_read hc hs (file_start hf (ends_start he))
    rw [List.append_assoc]
    exact ⟨is' ++ js', sameItems_append i1 j1, i2.commands j2⟩

/-- The text that ends the file is accepted, and not looked at behind the word. -/
theorem ends_oneOf (hg : GuardOk g) {e : List Char} (h : Ends e) : (∃ k u, oneOf g ["line", "end"] e = .ok k u) ∨ e = [] := by
  cases h with
  | eof => exact Or.inr rfl
  | word k u hk hu =>
    left
    simp only [List.mem_cons, List.not_mem_nil, or_false] at hk
    rcases hk with rfl | rfl
    · exact ⟨_, _, alt_ok (tok_self (k := "line") hg (by decide) hu)⟩
    · refine ⟨_, _, (alt_fail (noTok_fail hg (k := "line") (w := "end") (by decide +kernel) hu)).trans
        (alt_ok (tok_self (k := "end") hg (by decide) hu))⟩

end Acltk.IosText
