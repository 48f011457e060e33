import Verif.Lemmas.FwsmReadIface
/-!
# Reading the single commands as written
-/
namespace Acltk.FwsmText
open Acltk Acltk.Peg Acltk.Lookup Acltk.AclText

variable {tr : Bool} {rest : Text} {g : Guard}

/-! ## commands that do not apply -/

/-- No command with this keyword begins here. -/
def Skip (g : Guard) (t : Text) (k : String) : Prop :=
  ∀ {β : Type} (f : String → Unit → P β), (tok g k >>= fun x => ws >>= f x) t = .fail

theorem skip_word (hg : GuardOk g) {w : String} (hw : Word w) {t : Text} (ht : EndOfWord t) {k : String}
    (hk : (k.toList.all (fun c => !isBlank c)) = true) (h : w ≠ k) : Skip g (w.toList ++ t) k :=
  fun _ => kw_other hg (noBlank_of_decide hk) hw.noBlank ht h

theorem tok_char {c : Char} {t : Text} {k : String} (h : ∀ d ∈ k.toList.head?, d ≠ c) (hk : k.toList ≠ []) :
    tok g k (c :: t) = .fail := by
  unfold tok
  cases hx : token g (c :: t) k with
  | none => rfl
  | some p =>
    obtain ⟨n, r⟩ := p
    have := (token_inv hx).2
    cases hl : k.toList with
    | nil => exact absurd hl hk
    | cons d l =>
      rw [hl] at this
      simp at this
      exact absurd this.1.symm (h d (by simp [hl]))

theorem skip_char {c : Char} {t : Text} {k : String} (h : ∀ d ∈ k.toList.head?, d ≠ c) (hk : k.toList ≠ []) :
    Skip g (c :: t) k := fun _ => bind_fail (tok_char h hk)

theorem keep_ok {s : St} {p : P Item} {t r : Text} {i : Item} (h : p t = .ok i r) : keep s p t = .ok (i, s) r := by
  unfold keep; rw [bind_ok h]; rfl

theorem keep_fail {s : St} {p : P Item} {t : Text} (h : p t = .fail) : keep s p t = .fail := bind_fail h

theorem version_no {t : Text} (h : ∀ c ∈ t.head?, c ≠ 'A' ∧ c ≠ 'F') : version t = .fail := by
  unfold version
  apply bind_fail
  cases t with
  | nil => rfl
  | cons c t =>
    obtain ⟨h1, h2⟩ := h c (by simp)
    have a1 : (c == 'A') = false := by simpa using h1
    have a2 : (c == 'F') = false := by simpa using h2
    rw [alt_fail (pat_fail (by simp [Re.run, Re.chr, a1]))]
    exact pat_fail (by simp [Re.run, Re.chr, a2])

theorem head_no {t : Text} (h : Skip g t "access-list") : AclText.head g t = .fail := by
  unfold AclText.head; exact h _

theorem remarkLine_no {e : Env} {t : Text} (h : Skip e.guard t "access-list") : remarkLine e t = .fail :=
  bind_fail (head_no h)

theorem ruleExtended_no {e : Env} {t : Text} (h : AclText.head e.guard t = .fail) : ruleExtended e t = .fail := by
  unfold ruleExtended; rw [alt_fail (bind_fail h)]; exact bind_fail h

theorem ruleStandard_no {e : Env} {t : Text} (h : AclText.head e.guard t = .fail) : ruleStandard e t = .fail := bind_fail h

theorem ruleWebtype_no {e : Env} {t : Text} (h : AclText.head e.guard t = .fail) : ruleWebtype e t = .fail := by
  unfold ruleWebtype; rw [alt_fail (bind_fail h)]; exact bind_fail h

theorem ruleEthertype_no {e : Env} {t : Text} (h : AclText.head e.guard t = .fail) : ruleEthertype e t = .fail := bind_fail h

theorem accessList_no {e : Env} {t : Text} (h : Skip e.guard t "access-list") : accessList e t = .fail := by
  have hh := head_no h
  have hr := remarkLine_no h
  unfold accessList
  rw [alts_fail (remarked_fail hr _), alts_fail (bind_fail (ruleExtended_no hh)), alts_fail (remarked_fail hr _),
    alts_fail (bind_fail (ruleStandard_no hh)), alts_fail (remarked_fail hr _), alts_fail (bind_fail (ruleWebtype_no hh)),
    alts_fail (remarked_fail hr _), alts_fail (bind_fail (ruleEthertype_no hh))]
  rfl

theorem hostname_no {t : Text} (h : Skip g t "hostname") : hostname g t = .fail := by unfold hostname; exact h _
theorem domainName_no {t : Text} (h : Skip g t "domain-name") : domainName g t = .fail := by unfold domainName; exact h _
theorem interface_no {s : St} {t : Text} (h : Skip s.env.guard t "interface") : interface s t = .fail := by
  unfold interface; exact h _
theorem name_no {s : St} {t : Text} (h : Skip s.env.guard t "name") : name s t = .fail := by unfold name; exact h _
theorem timeRange_no {s : St} {t : Text} (h : Skip s.env.guard t "time-range") : timeRange s t = .fail := by
  unfold timeRange; exact h _
theorem object_no {s : St} {t : Text} (h : Skip s.env.guard t "object") : object s t = .fail := by unfold object; exact h _
theorem objectGroup_no {s : St} {t : Text} (h : Skip s.env.guard t "object-group") : objectGroup s t = .fail := by
  unfold objectGroup; exact h _
theorem accessGroup_no {t : Text} (h : Skip g t "access-group") : accessGroup g t = .fail := by
  unfold accessGroup; rw [alt_fail (h _)]; exact h _
theorem nat_no {s : St} {t : Text} (h : Skip s.env.guard t "nat") : nat s t = .fail := by
  unfold nat; rw [alt_fail (h _)]; exact h _

/-- The keywords of the commands. -/
def keywords : List String := ["hostname", "domain-name", "interface", "name", "time-range", "object", "object-group",
  "access-list", "access-group", "nat"]

/-- The text begins with this word, and it is none of the given keywords. -/
theorem skips_word (hg : GuardOk g) {w : String} (hw : Word w) {t : Text} (ht : EndOfWord t) :
    ∀ k ∈ keywords, w ≠ k → Skip g (w.toList ++ t) k := by
  intro k hk h
  exact skip_word hg hw ht ((by decide : ∀ k ∈ keywords, (k.toList.all (fun c => !isBlank c)) = true) k hk) h

theorem skips_char {c : Char} (hc : ∀ k ∈ keywords, ∀ d ∈ k.toList.head?, d ≠ c) (t : Text) :
    ∀ k ∈ keywords, Skip g (c :: t) k := by
  intro k hk
  exact skip_char (hc k hk) ((by decide : ∀ k ∈ keywords, k.toList ≠ []) k hk)

section
variable {s : St} {t : Text}

theorem command_hostname (hv : version t = .fail) {x : Item × St} {r : Text}
    (h : keep s (hostname s.env.guard) t = .ok x r) : command s t = .ok x r := by
  unfold command
  rw [alts_fail (keep_fail hv)]
  exact alts_ok h

theorem command_domain (hv : version t = .fail) (h1 : Skip s.env.guard t "hostname") {x : Item × St} {r : Text}
    (h : keep s (domainName s.env.guard) t = .ok x r) : command s t = .ok x r := by
  unfold command
  rw [alts_fail (keep_fail hv), alts_fail (keep_fail (hostname_no h1))]
  exact alts_ok h

theorem command_interface (hv : version t = .fail) (hk : ∀ k ∈ keywords, k ≠ "interface" → Skip s.env.guard t k)
    {x : Item × St} {r : Text} (h : interface s t = .ok x r) : command s t = .ok x r := by
  unfold command
  rw [alts_fail (keep_fail hv), alts_fail (keep_fail (hostname_no (hk _ (by decide) (by decide)))),
    alts_fail (keep_fail (domainName_no (hk _ (by decide) (by decide))))]
  exact alts_ok h

theorem command_name (hv : version t = .fail) (hk : ∀ k ∈ keywords, k ≠ "name" → Skip s.env.guard t k)
    {x : Item × St} {r : Text} (h : name s t = .ok x r) : command s t = .ok x r := by
  unfold command
  rw [alts_fail (keep_fail hv), alts_fail (keep_fail (hostname_no (hk _ (by decide) (by decide)))),
    alts_fail (keep_fail (domainName_no (hk _ (by decide) (by decide)))), alts_fail (interface_no (hk _ (by decide) (by decide)))]
  exact alts_ok h

theorem command_timeRange (hv : version t = .fail) (hk : ∀ k ∈ keywords, k ≠ "time-range" → Skip s.env.guard t k)
    {x : Item × St} {r : Text} (h : timeRange s t = .ok x r) : command s t = .ok x r := by
  unfold command
  rw [alts_fail (keep_fail hv), alts_fail (keep_fail (hostname_no (hk _ (by decide) (by decide)))),
    alts_fail (keep_fail (domainName_no (hk _ (by decide) (by decide)))), alts_fail (interface_no (hk _ (by decide) (by decide))),
    alts_fail (name_no (hk _ (by decide) (by decide)))]
  exact alts_ok h

theorem command_object (hv : version t = .fail) (hk : ∀ k ∈ keywords, k ≠ "object" → Skip s.env.guard t k)
    {x : Item × St} {r : Text} (h : object s t = .ok x r) : command s t = .ok x r := by
  unfold command
  rw [alts_fail (keep_fail hv), alts_fail (keep_fail (hostname_no (hk _ (by decide) (by decide)))),
    alts_fail (keep_fail (domainName_no (hk _ (by decide) (by decide)))), alts_fail (interface_no (hk _ (by decide) (by decide))),
    alts_fail (name_no (hk _ (by decide) (by decide))), alts_fail (timeRange_no (hk _ (by decide) (by decide)))]
  exact alts_ok h

theorem command_objectGroup (hv : version t = .fail) (hk : ∀ k ∈ keywords, k ≠ "object-group" → Skip s.env.guard t k)
    {x : Item × St} {r : Text} (h : objectGroup s t = .ok x r) : command s t = .ok x r := by
  unfold command
  rw [alts_fail (keep_fail hv), alts_fail (keep_fail (hostname_no (hk _ (by decide) (by decide)))),
    alts_fail (keep_fail (domainName_no (hk _ (by decide) (by decide)))), alts_fail (interface_no (hk _ (by decide) (by decide))),
    alts_fail (name_no (hk _ (by decide) (by decide))), alts_fail (timeRange_no (hk _ (by decide) (by decide))),
    alts_fail (object_no (hk _ (by decide) (by decide)))]
  exact alts_ok h

theorem command_rule (hv : version t = .fail) (hk : ∀ k ∈ keywords, k ≠ "access-list" → Skip s.env.guard t k)
    {x : PRule} {r : Text} (h : accessList s.env t = .ok (some x) r) : command s t = .ok (.rule x, s) r := by
  unfold command
  rw [alts_fail (keep_fail hv), alts_fail (keep_fail (hostname_no (hk _ (by decide) (by decide)))),
    alts_fail (keep_fail (domainName_no (hk _ (by decide) (by decide)))), alts_fail (interface_no (hk _ (by decide) (by decide))),
    alts_fail (name_no (hk _ (by decide) (by decide))), alts_fail (timeRange_no (hk _ (by decide) (by decide))),
    alts_fail (object_no (hk _ (by decide) (by decide))), alts_fail (objectGroup_no (hk _ (by decide) (by decide)))]
  exact alts_ok (keep_ok (by rw [bind_ok h]; rfl))

theorem command_remarks (hv : version t = .fail) (hk : ∀ k ∈ keywords, k ≠ "access-list" → Skip s.env.guard t k)
    (hf : accessList s.env t = .fail)
    {x : List (List Char)} {r : Text} (h : many1 (remarkLine s.env) t = .ok x r) : command s t = .ok (.remarks x, s) r := by
  unfold command
  rw [alts_fail (keep_fail hv), alts_fail (keep_fail (hostname_no (hk _ (by decide) (by decide)))),
    alts_fail (keep_fail (domainName_no (hk _ (by decide) (by decide)))), alts_fail (interface_no (hk _ (by decide) (by decide))),
    alts_fail (name_no (hk _ (by decide) (by decide))), alts_fail (timeRange_no (hk _ (by decide) (by decide))),
    alts_fail (object_no (hk _ (by decide) (by decide))), alts_fail (objectGroup_no (hk _ (by decide) (by decide))),
    alts_fail (keep_fail (bind_fail hf))]
  exact alts_ok (keep_ok (by rw [bind_ok h]; rfl))

theorem command_accessGroup (hv : version t = .fail) (hk : ∀ k ∈ keywords, k ≠ "access-group" → Skip s.env.guard t k)
    {x : Item} {r : Text} (h : accessGroup s.env.guard t = .ok x r) : command s t = .ok (x, s) r := by
  unfold command
  rw [alts_fail (keep_fail hv), alts_fail (keep_fail (hostname_no (hk _ (by decide) (by decide)))),
    alts_fail (keep_fail (domainName_no (hk _ (by decide) (by decide)))), alts_fail (interface_no (hk _ (by decide) (by decide))),
    alts_fail (name_no (hk _ (by decide) (by decide))), alts_fail (timeRange_no (hk _ (by decide) (by decide))),
    alts_fail (object_no (hk _ (by decide) (by decide))), alts_fail (objectGroup_no (hk _ (by decide) (by decide))),
    alts_fail (keep_fail (bind_fail (accessList_no (hk _ (by decide) (by decide))))),
    alts_fail (keep_fail (bind_fail (many1_fail (remarkLine_no (hk _ (by decide) (by decide))))))]
  exact alts_ok (keep_ok h)

theorem command_nat (hv : version t = .fail) (hk : ∀ k ∈ keywords, k ≠ "nat" → Skip s.env.guard t k)
    {x : Item} {r : Text} (h : nat s t = .ok x r) : command s t = .ok (x, s) r := by
  unfold command
  rw [alts_fail (keep_fail hv), alts_fail (keep_fail (hostname_no (hk _ (by decide) (by decide)))),
    alts_fail (keep_fail (domainName_no (hk _ (by decide) (by decide)))), alts_fail (interface_no (hk _ (by decide) (by decide))),
    alts_fail (name_no (hk _ (by decide) (by decide))), alts_fail (timeRange_no (hk _ (by decide) (by decide))),
    alts_fail (object_no (hk _ (by decide) (by decide))), alts_fail (objectGroup_no (hk _ (by decide) (by decide))),
    alts_fail (keep_fail (bind_fail (accessList_no (hk _ (by decide) (by decide))))),
    alts_fail (keep_fail (bind_fail (many1_fail (remarkLine_no (hk _ (by decide) (by decide)))))),
    alts_fail (keep_fail (accessGroup_no (hk _ (by decide) (by decide))))]
  exact alts_ok (keep_ok h)

theorem command_last (hv : version t = .fail) (hk : ∀ k ∈ keywords, Skip s.env.guard t k) :
    command s t = alts [keep s (ignored s.env.guard), keep s (do
      nl
      pure .nothing)] t := by
  unfold command
  rw [alts_fail (keep_fail hv), alts_fail (keep_fail (hostname_no (hk _ (by decide)))),
    alts_fail (keep_fail (domainName_no (hk _ (by decide)))), alts_fail (interface_no (hk _ (by decide))),
    alts_fail (name_no (hk _ (by decide))), alts_fail (timeRange_no (hk _ (by decide))),
    alts_fail (object_no (hk _ (by decide))), alts_fail (objectGroup_no (hk _ (by decide))),
    alts_fail (keep_fail (bind_fail (accessList_no (hk _ (by decide))))),
    alts_fail (keep_fail (bind_fail (many1_fail (remarkLine_no (hk _ (by decide)))))),
    alts_fail (keep_fail (accessGroup_no (hk _ (by decide)))), alts_fail (keep_fail (nat_no (hk _ (by decide))))]

end

/-! ## single lines -/

theorem version_read {p v : List Char} (hp : p = "ASA Version ".toList ∨ p = "FWSM Version ".toList) (hv : '\n' ∉ v)
    (rest : Text) : version (p ++ (v ++ ['\n']) ++ rest) = .ok (.version (p ++ v)) rest := by
  have hc : ∀ c ∈ v, (c != '\n') = true := by intro c hc; simp; rintro rfl; exact hv hc
  obtain ⟨L, hL⟩ := starRests_head (q := (· != '\n')) (w := v) (t := '\n' :: rest) hc (by
    intro c hc; simp at hc; subst hc; rfl)
  unfold version
  have et : p ++ (v ++ ['\n']) ++ rest = (p ++ v) ++ '\n' :: rest := by simp
  rw [et]
  rcases hp with rfl | rfl
  · rw [bind_ok (alt_ok (pat_of_run (w := "ASA Version ".toList ++ v) (L := L) (by
      simp [Re.run, Re.chr]; exact hL))), bind_ok (nl_lf rest)]
    rfl
  · rw [bind_ok (show alt _ _ _ = .ok _ _ from by
      rw [alt_fail (pat_fail (by simp [Re.run, Re.chr]))]
      exact pat_of_run (w := "FWSM Version ".toList ++ v) (L := L) (by
        simp [Re.run, Re.chr]; exact hL)), bind_ok (nl_lf rest)]
    rfl

theorem hostname_read (hg : GuardOk g) {w : String} {l : List Char} (hw : Identifier w) (hl : Bare ["hostname", w] l)
    (rest : Text) : hostname g (l ++ rest) = .ok (.hostname w) rest := by
  obtain ⟨t1, s1, f1⟩ := kw_step hg (sta_of_bare (rest := rest) hl) (by decide) hw.word
  obtain ⟨t2, rfl, e2, s2⟩ := s1.word
  unfold hostname
  rw [f1, bind_ok (identifier_read hw e2), bind_ok s2.nl, String.ofList_toList]
  rfl

theorem domain_read (hg : GuardOk g) {w : String} {l : List Char} (hw : Identifier w) (hl : Bare ["domain-name", w] l)
    (rest : Text) : ∃ c n, c ≠ [] ∧ l = c ++ n ∧ (n = ['\n'] ∨ n = ['\r', '\n']) ∧
      domainName g (l ++ rest) = .ok (.domain w) (n ++ rest) := by
  obtain ⟨t, n, hs, hn, rfl⟩ := hl
  have en : EndOfWord (n ++ rest) := by rcases hn with rfl | rfl <;> exact ⟨rest, by simp⟩
  cases hs with
  | cons _ b _ _ hne hb hs =>
    cases hs with
    | cons _ _ _ _ _ _ h => cases h
    | one =>
      refine ⟨_, n, by simp, rfl, hn, ?_⟩
      have et : "domain-name".toList ++ (b ++ w.toList) ++ n ++ rest = "domain-name".toList ++ (b ++ (w.toList ++ (n ++ rest))) := by
        simp only [List.append_assoc]
      unfold domainName
      rw [et, bind_ok (tok_self hg (by decide) (blanks_end hne hb)), bind_ok (ws_ok hne hb (word_head hw.word _)),
        bind_ok (identifier_read hw en), String.ofList_toList]
      rfl

theorem name_read {s : St} (hg : GuardOk s.env.guard) {w n : String} {a : Addr} {l : List Char} (hw : AddrLit w a)
    (hn : Identifier n) (hl : Bare ["name", w, n] l) (rest : Text) : name s (l ++ rest) =
      .ok (.name n a none, { s with env := { s.env with names := dSet s.env.names n a } }) rest := by
  obtain ⟨t1, s1, f1⟩ := kw_step hg (sta_of_bare (rest := rest) hl) (by decide) hw.word
  obtain ⟨t2, rfl, e2, s2⟩ := s1.word
  obtain ⟨t3, h3, s3⟩ := s2.blanks hn.word
  obtain ⟨t4, rfl, e4, s4⟩ := s3.word
  unfold name
  rw [f1, bind_ok (addrLit_read hw e2), bind_ok h3, bind_ok (identifier_read hn e4),
    bind_ok (opt_fail (bind_fail s4.noWs)), bind_ok s4.nl, String.ofList_toList]
  rfl

theorem restOfLine_read {d : List Char} (hne : d ≠ []) (hd : '\n' ∉ d) (rest : Text) :
    restOfLine (d ++ '\n' :: rest) = .ok d ('\n' :: rest) := by
  apply pat_plus hne
  · intro c hc; simp; rintro rfl; exact hd hc
  · intro c hc; simp at hc; subst hc; rfl

theorem nameDescription_read {s : St} (hg : GuardOk s.env.guard) {w n : String} {a : Addr} {l d : List Char}
    (hw : AddrLit w a) (hn : Identifier n) (hl : Spaced ["name", w, n, "description"] l) (hne : d ≠ []) (hd : LineRest d)
    (rest : Text) : name s (l ++ (d ++ ['\n']) ++ rest) =
      .ok (.name n a (some d), { s with env := { s.env with names := dSet s.env.names n a } }) rest := by
  cases hl with
  | cons _ b1 _ _ hb1 hbl1 hl =>
  cases hl with
  | cons _ b2 _ _ hb2 hbl2 hl =>
  cases hl with
  | cons _ b3 _ _ hb3 hbl3 hl =>
  cases hl with
  | cons _ b4 _ _ hb4 hbl4 hl => cases hl
  | one =>
  have et : "name".toList ++ (b1 ++ (w.toList ++ (b2 ++ (n.toList ++ (b3 ++ "description".toList))))) ++ (d ++ ['\n']) ++ rest =
      "name".toList ++ (b1 ++ (w.toList ++ (b2 ++ (n.toList ++ (b3 ++ ("description".toList ++ (d ++ '\n' :: rest))))))) := by
    simp
  rw [et]
  have wd : Word "description" := kwWord (by decide)
  unfold name
  rw [bind_ok (tok_self hg (by decide) (blanks_end hb1 hbl1)), bind_ok (ws_ok hb1 hbl1 (word_head hw.word _)),
    bind_ok (addrLit_read hw (blanks_end hb2 hbl2)), bind_ok (ws_ok hb2 hbl2 (word_head hn.word _)),
    bind_ok (identifier_read hn (blanks_end hb3 hbl3)),
    bind_ok (opt_ok (a := d) (r := '\n' :: rest) (by
      rw [bind_ok (ws_ok hb3 hbl3 (word_head wd _)), bind_ok (tok_self hg (by decide) (hd.eow rest))]
      exact restOfLine_read hne hd.1 rest)), bind_ok (nl_lf rest), String.ofList_toList]
  rfl

theorem accessGroup_read (hg : GuardOk g) {n d i : String} {l : List Char} (hn : IdWord n) (hd : IdWord d) (hi : IdWord i)
    (hl : Line ["access-group", n, d, "interface", i] l) (rest : Text) :
    accessGroup g (l ++ rest) = .ok (.accessGroup n d i) rest := by
  obtain ⟨t1, s1, f1⟩ := kw_step hg (sta_of_line (rest := rest) hl) (by decide) hn.word
  obtain ⟨t2, rfl, e2, s2⟩ := s1.word
  obtain ⟨t3, h3, s3⟩ := s2.blanks hd.word
  obtain ⟨t4, rfl, e4, s4⟩ := s3.word
  obtain ⟨t5, h5, s5⟩ := s4.blanks (kwWord (by decide))
  obtain ⟨t6, s6, f6⟩ := kw_step hg s5 (by decide) hi.word
  obtain ⟨t7, rfl, e7, s7⟩ := s6.word
  unfold accessGroup
  apply alt_ok
  rw [f1, bind_ok (objName_read hn e2), bind_ok h3, bind_ok (objName_read hd e4), bind_ok h5, f6,
    bind_ok (objName_read hi e7), s7.finish]
  simp only [String.ofList_toList]
  rfl

theorem accessGroupGlobal_read (hg : GuardOk g) {n : String} {l : List Char} (hn : IdWord n)
    (hl : Line ["access-group", n, "global"] l) (rest : Text) :
    accessGroup g (l ++ rest) = .ok .nothing rest := by
  obtain ⟨t1, s1, f1⟩ := kw_step hg (sta_of_line (rest := rest) hl) (by decide) hn.word
  obtain ⟨t2, rfl, e2, s2⟩ := s1.word
  have wg : Word "global" := kwWord (by decide)
  obtain ⟨t3, h3, s3⟩ := s2.blanks wg
  obtain ⟨t4, rfl, e4, s4⟩ := s3.word
  have ig : IdWord "global" := ⟨by decide, by decide⟩
  unfold accessGroup
  rw [alt_fail (show _ = Res.fail from by
    rw [f1, bind_ok (objName_read hn e2), bind_ok h3, bind_ok (objName_read ig e4)]
    obtain ⟨b, n, hb, -, hn, rfl⟩ := s4
    by_cases hbe : b = []
    · subst hbe
      apply bind_fail
      apply ws_fail
      rcases hn with rfl | rfl <;> (intro c hc; simp at hc; subst hc; decide)
    · rw [bind_ok (ws_ok (t := n ++ rest) hbe hb (by
        rcases hn with rfl | rfl <;> (intro c hc; simp at hc; subst hc; decide)))]
      apply bind_fail
      rcases hn with rfl | rfl <;> exact tok_char (by decide) (by decide))]
  rw [f1, bind_ok (objName_read hn e2), bind_ok h3, bind_ok (tok_self hg (by decide) e4), s4.finish]
  rfl

/-! ## ignored commands -/

/-- What may follow: no indented line, also not behind an empty line. -/
def StartOK (t : Text) : Prop := NoSp t ∧ ∀ r, nl t = .ok () r → NoSp r

theorem ignoredIndent_read {l : List Char} (h : Indented l) (hr : StartOK rest) : ignoredIndent (l ++ rest) = .ok () rest := by
  have key : many (do
    let _ ← opt nl
    sp
    let _ ← toeol
    nl) (l ++ rest) = .ok (l.filter (· == '\n') |>.map (fun _ => ())) rest := by
    induction h with
    | nil =>
      apply many_fail
      rw [List.nil_append]
      cases hn : nl rest with
      | ok a r =>
        rw [bind_ok (opt_ok hn)]
        exact bind_fail (sp_fail (hr.2 r hn))
      | fail =>
        rw [bind_ok (opt_fail hn)]
        exact bind_fail (sp_fail hr.1)
      | raise e =>
        exfalso
        unfold nl at hn
        split at hn <;> cases hn
    | cons l t hl _ ih =>
      have et : ' ' :: (l ++ '\n' :: t) ++ rest = ' ' :: (l ++ '\n' :: (t ++ rest)) := by simp
      have ef : (' ' :: (l ++ '\n' :: t)).filter (· == '\n') = '\n' :: t.filter (· == '\n') := by
        have : l.filter (· == '\n') = [] := by
          rw [List.filter_eq_nil_iff]; intro c hc; simp; rintro rfl; exact hl hc
        simp [List.filter_append, this]
      rw [et, ef]
      refine many_ok (r := t ++ rest) ?_ (by simp; omega) ih
      rw [bind_ok (opt_fail (by rfl)), bind_ok (sp_cons _), bind_ok (toeol_read hl _)]
      rfl
  unfold ignoredIndent
  rw [bind_ok key]
  rfl

theorem blanks_split (u : List Char) : ∃ b v, u = b ++ v ∧ Blanks b ∧ ∀ c ∈ v.head?, c ≠ ' ' ∧ c ≠ '\t' := by
  induction u with
  | nil => exact ⟨[], [], rfl, by intro c hc; simp at hc, by simp⟩
  | cons c u ih =>
    by_cases hc : c = ' ' ∨ c = '\t'
    · obtain ⟨b, v, rfl, hb, hv⟩ := ih
      exact ⟨c :: b, v, rfl, by
        intro d hd
        rcases List.mem_cons.1 hd with rfl | hd
        · exact hc
        · exact hb d hd, hv⟩
    · exact ⟨[], c :: u, rfl, by intro c hc; simp at hc, by
        intro d hd; simp at hd; subst hd; exact ⟨fun h => hc (Or.inl h), fun h => hc (Or.inr h)⟩⟩

/-- Blanks and the rest of the line. -/
theorem ws_line {c : Char} (hc : c = ' ' ∨ c = '\t') {u : List Char} (hu : '\n' ∉ u) (rest : Text) :
    ∃ v, '\n' ∉ v ∧ ws (c :: (u ++ '\n' :: rest)) = .ok () (v ++ '\n' :: rest) := by
  obtain ⟨b, v, rfl, hb, hv⟩ := blanks_split u
  refine ⟨v, fun h => hu (by simp [h]), ?_⟩
  have := ws_ok (b := c :: b) (t := v ++ '\n' :: rest) (by simp) (by
    intro d hd
    rcases List.mem_cons.1 hd with rfl | hd
    · exact hc
    · exact hb d hd) (by
    intro d hd
    cases v with
    | nil => simp at hd; subst hd; decide
    | cons e v => exact hv d (by simpa using hd))
  simpa using this

theorem tail_read {f : Tail} {u : List Char} (h : TailText f u) (hr : StartOK rest) : tail f (u ++ rest) = .ok () rest := by
  cases h with
  | ws c u hc hu =>
    obtain ⟨v, hv, hw⟩ := ws_line hc hu rest
    have et : c :: (u ++ ['\n']) ++ rest = c :: (u ++ '\n' :: rest) := by simp
    rw [et, tail, bind_ok hw, bind_ok (toeol_read hv rest)]
    rfl
  | eol u hu =>
    have et : u ++ ['\n'] ++ rest = u ++ '\n' :: rest := by simp
    rw [et, tail, bind_ok (toeol_read hu.1 rest)]
    rfl
  | optWs c u hc hu =>
    obtain ⟨v, hv, hw⟩ := ws_line hc hu rest
    have et : c :: (u ++ ['\n']) ++ rest = c :: (u ++ '\n' :: rest) := by simp
    rw [et, tail, bind_ok (opt_ok (by rw [bind_ok hw]; exact toeol_read hv rest))]
    rfl
  | optNone n hn =>
    rw [tail, bind_ok (opt_fail (bind_fail (ws_fail (by
      rcases hn with rfl | rfl <;> (intro c hc; simp at hc; subst hc; decide)))))]
    exact nl_ok hn
  | bare n hn => exact nl_ok hn
  | wsIndent c u l hc hu hl =>
    obtain ⟨v, hv, hw⟩ := ws_line hc hu (l ++ rest)
    have et : c :: (u ++ '\n' :: l) ++ rest = c :: (u ++ '\n' :: (l ++ rest)) := by simp
    rw [et, tail, bind_ok hw, bind_ok (toeol_read hv _), bind_ok (nl_lf _)]
    exact ignoredIndent_read hl hr
  | eolIndent u l hu hl =>
    have et : u ++ '\n' :: l ++ rest = u ++ '\n' :: (l ++ rest) := by simp
    rw [et, tail, bind_ok (toeol_read hu.1 _), bind_ok (nl_lf _)]
    exact ignoredIndent_read hl hr

theorem lineEnd_eow {n : List Char} (hn : n = ['\n'] ∨ n = ['\r', '\n']) (rest : Text) : EndOfWord (n ++ rest) := by
  rcases hn with rfl | rfl
  · exact ⟨rest, by simp⟩
  · exact ⟨rest, by simp⟩

theorem tail_eow {f : Tail} {u : List Char} (h : TailText f u) (rest : Text) : EndOfWord (u ++ rest) := by
  have bl : ∀ {c : Char} (v : List Char), c = ' ' ∨ c = '\t' → EndOfWord (c :: v) := by
    rintro c v (rfl | rfl)
    · exact ⟨v, by simp⟩
    · exact ⟨v, by simp⟩
  cases h with
  | ws c u hc hu => exact bl _ hc
  | eol u hu => rw [List.append_assoc]; exact hu.eow rest
  | optWs c u hc hu => exact bl _ hc
  | optNone n hn => exact lineEnd_eow hn rest
  | bare n hn => exact lineEnd_eow hn rest
  | wsIndent c u l hc hu hl => exact bl _ hc
  | eolIndent u l hu hl => rw [List.append_assoc]; exact hu.eow _

theorem alts_find (hg : GuardOk g) {w : String} {t : Text} (ht : EndOfWord t) {f : Tail} {l : List (String × Tail)}
    (hl : ∀ kt ∈ l, ∀ c ∈ kt.1.toList, isBlank c = false) (h : l.find? (fun kt => mayMatch w kt.1) = some (w, f))
    {r : Text} (hr : tail f t = .ok () r) :
    alts (l.map (fun kt => (do
      let _ ← tok g kt.1
      tail kt.2
      pure .nothing : P Item))) (w.toList ++ t) = .ok .nothing r := by
  induction l with
  | nil => cases h
  | cons kt l ih =>
    rw [List.find?_cons] at h
    rw [List.map_cons]
    split at h
    · cases h
      apply alts_ok
      rw [bind_ok ((tok_word (hl _ (by simp)) ht hg.passes).1 rfl), bind_ok hr]
      rfl
    · rename_i hm
      rw [alts_fail (bind_fail (tok_no hg (hl _ (by simp)) ht hm))]
      exact ih (fun kt hkt => hl kt (by simp [hkt])) h

theorem ignoredList_find : ∀ kt ∈ ignoredList, ignoredList.find? (fun x => mayMatch kt.1 x.1) = some kt := by
  decide +kernel

theorem ignoredList_blank : ∀ kt ∈ ignoredList, ∀ c ∈ kt.1.toList, isBlank c = false := by decide +kernel

theorem ignored_read (hg : GuardOk g) {k : String} {f : Tail} {u : List Char} (hk : (k, f) ∈ ignoredList)
    (hu : TailText f u) (hr : StartOK rest) : ignored g (k.toList ++ u ++ rest) = .ok .nothing rest := by
  unfold ignored
  rw [List.append_assoc]
  exact alts_find hg (tail_eow hu rest) ignoredList_blank (ignoredList_find _ hk) (tail_read hu hr)

/-- A comment: the sign may stand directly in front of other characters. -/
theorem comment_read (hg : ∀ n t, (∃ d ∈ n.toList, d.isAlphanum = false) → g n t = true) {k : String}
    (hk : k ∈ [":", "!", "Cryptochecksum:"]) {u : List Char} (hu : '\n' ∉ u) (rest : Text) :
    ignored g (k.toList ++ (u ++ ['\n']) ++ rest) = .ok .nothing rest := by
  have et : k.toList ++ (u ++ ['\n']) ++ rest = k.toList ++ (u ++ '\n' :: rest) := by simp
  have tk : ∀ t, tok g k (k.toList ++ t) = .ok k t := by
    intro t
    unfold tok token
    have hgk : g k t = true := by
      apply hg
      simp only [List.mem_cons, List.not_mem_nil, or_false] at hk
      rcases hk with rfl | rfl | rfl
      · exact ⟨':', by decide, by decide⟩
      · exact ⟨'!', by decide, by decide⟩
      · exact ⟨':', by decide, by decide⟩
    rw [if_pos (List.isPrefixOf_iff_prefix.2 (List.prefix_append _ _))]
    simp [hgk]
  have fin : (do
      let _ ← tok g k
      tail .eol
      pure .nothing : P Item) (k.toList ++ (u ++ '\n' :: rest)) = .ok .nothing rest := by
    rw [bind_ok (tk _), tail, bind_apply, bind_ok (toeol_read hu rest)]
    rfl
  rw [et]
  unfold ignored
  have key : ∀ (a b : List (String × Tail)), (∀ kt ∈ a, ∃ c d l, kt.1.toList = d :: l ∧ k.toList.head? = some c ∧ d ≠ c) →
      alts ((a ++ (k, .eol) :: b).map (fun kt => (do
        let _ ← tok g kt.1
        tail kt.2
        pure .nothing : P Item))) (k.toList ++ (u ++ '\n' :: rest)) = .ok .nothing rest := by
    intro a b ha
    induction a with
    | nil => exact alts_ok fin
    | cons kt a ih =>
      rw [List.cons_append, List.map_cons]
      obtain ⟨c, d, l, h1, h2, h3⟩ := ha kt (by simp)
      rw [alts_fail (bind_fail (show tok g kt.1 _ = .fail from by
        cases hx : k.toList with
        | nil => rw [hx] at h2; cases h2
        | cons c' l' =>
          rw [hx] at h2; simp at h2; subst h2
          exact tok_char (by rw [h1]; intro e he; simp at he; subst he; exact h3) (by rw [h1]; simp)))]
      exact ih (fun kt hkt => ha kt (by simp [hkt]))
  simp only [List.mem_cons, List.not_mem_nil, or_false] at hk
  rcases hk with rfl | rfl | rfl
  · exact key [] _ (by simp)
  · exact key [(":", .eol)] _ (by intro kt h; simp at h; subst h; exact ⟨'!', ':', [], by decide, by decide, by decide⟩)
  · refine key (ignoredList.take 15) (ignoredList.drop 16) ?_
    intro kt hkt
    have : ∀ kt ∈ ignoredList.take 15, kt.1.toList ≠ [] ∧ ∀ d ∈ kt.1.toList.head?, d ≠ 'C' := by decide +kernel
    obtain ⟨h1, h2⟩ := this kt hkt
    cases hx : kt.1.toList with
    | nil => exact absurd hx h1
    | cons d l => exact ⟨'C', d, l, rfl, by decide, h2 d (by simp [hx])⟩

theorem ignored_blank {n : List Char} (hn : n = ['\n'] ∨ n = ['\r', '\n']) (rest : Text) : ignored g (n ++ rest) = .fail := by
  unfold ignored
  have hf : ∀ kt ∈ ignoredList, kt.1.toList ≠ [] ∧ ∀ d ∈ kt.1.toList.head?, d ≠ '\n' ∧ d ≠ '\r' := by decide +kernel
  revert hf
  generalize ignoredList = l
  intro hf
  induction l with
  | nil => rfl
  | cons kt l ih =>
    rw [List.map_cons]
    obtain ⟨h1, h2⟩ := hf kt (by simp)
    rw [alts_fail (bind_fail (show tok g kt.1 _ = .fail from by
      rcases hn with rfl | rfl
      · exact tok_char (fun d hd => (h2 d hd).1) h1
      · exact tok_char (fun d hd => (h2 d hd).2) h1))]
    exact ih (fun kt hkt => hf kt (by simp [hkt]))

end Acltk.FwsmText
