import Verif.Props.FwsmLines
/-!
# Where the commands of an accepted configuration begin

A command goes on behind a line end only with a blank, with an empty line, or with an access-list line.  So any other line
of an accepted text begins a command.
-/
namespace Acltk.FwsmText
open Acltk Acltk.Lookup Acltk.Peg Acltk.AclText

variable {α β : Type} {g : Guard} {s : St}

/-- The characters with which a line inside a command begins. -/
def InC (x : Char) : Prop := x = ' ' ∨ x = 'a' ∨ x = '\n' ∨ x = '\r'

instance (x : Char) : Decidable (InC x) := inferInstanceAs (Decidable (_ ∨ _))

/-- Behind every line end of the text such a character follows, and also at its beginning if `b`. -/
def Ok : Bool → List Char → Prop
  | _, [] => True
  | b, x :: c => (b = true → InC x) ∧ Ok (x == '\n') c

theorem Ok.weaken {b : Bool} {c : List Char} (h : Ok true c) : Ok b c := by
  cases c with
  | nil => trivial
  | cons x c => exact ⟨fun _ => h.1 rfl, h.2⟩

theorem Ok.append {b : Bool} {c d : List Char} (h : Ok b c) (h2 : Ok true d) : Ok b (c ++ d) := by
  induction c generalizing b with
  | nil => exact h2.weaken
  | cons x c ih => exact ⟨h.1, ih h.2⟩

theorem Ok.line {c d : List Char} (h : '\n' ∉ c) (h2 : Ok false d) : Ok false (c ++ d) := by
  induction c with
  | nil => exact h2
  | cons x c ih =>
    simp only [List.mem_cons, not_or] at h
    refine ⟨fun e => (by cases e), ?_⟩
    have : (x == '\n') = false := by simpa using fun e => h.1 (Eq.symm e)
    rw [this]
    exact ih h.2

theorem Ok.one {c : List Char} (h : '\n' ∉ c) : Ok false c := by
  simpa using Ok.line (d := []) h trivial

/-- The rule begins inside a line. -/
def M (p : P α) : Prop := Reads p (fun c _ => Ok false c)
/-- The rule may begin at the beginning of a line. -/
def N (p : P α) : Prop := Reads p (fun c _ => Ok true c)

theorem N.m {p : P α} (h : N p) : M p := h.mono fun _ _ h => h.weaken

theorem M.inl {p : P α} (h : InLine p) : M p := h.mono fun _ _ h => .one h

theorem M.bind {p : P α} {f : α → P β} (h : InLine p) (hf : ∀ a, M (f a)) : M (p >>= f) :=
  (Reads.bind h hf).mono (by rintro c b ⟨c1, c2, a, rfl, h1, h2⟩; exact .line h1 h2)

theorem M.then {p : P α} {f : α → P β} (h : M p) (hf : ∀ a, N (f a)) : M (p >>= f) :=
  (Reads.bind h hf).mono (by rintro c b ⟨c1, c2, a, rfl, h1, h2⟩; exact h1.append h2)

theorem N.bind {p : P α} {f : α → P β} (h : N p) (hf : ∀ a, N (f a)) : N (p >>= f) :=
  (Reads.bind h hf).mono (by rintro c b ⟨c1, c2, a, rfl, h1, h2⟩; exact h1.append h2)

theorem N.em {p : P α} (h : Em p) : N p := h.mono (by rintro c a rfl; trivial)

theorem N.nl : N nl := reads_nl.mono (by
  rintro c a (rfl | rfl)
  · exact ⟨fun _ => by decide, trivial⟩
  · exact ⟨fun _ => by decide, fun e => by revert e; decide, trivial⟩)

theorem N.sp {f : Unit → P β} (hf : ∀ a, M (f a)) : N (Peg.sp >>= f) :=
  (Reads.bind reads_sp hf).mono (by
    rintro c b ⟨c1, c2, a, rfl, rfl, h2⟩
    exact ⟨fun _ => by decide, h2⟩)

theorem M.sp {f : Unit → P β} (hf : ∀ a, M (f a)) : M (Peg.sp >>= f) := (N.sp hf).m

theorem M.alt {p q : P α} (hp : M p) (hq : M q) : M (alt p q) := Reads.alt hp hq
theorem M.alts_nil : M (alts ([] : List (P α))) := reads_fail _
theorem M.alts_cons {p : P α} {l : List (P α)} (hp : M p) (hl : M (alts l)) : M (alts (p :: l)) := Reads.alt hp hl
theorem N.alt {p q : P α} (hp : N p) (hq : N q) : N (alt p q) := Reads.alt hp hq

theorem N.opt {p : P α} (h : N p) : N (opt p) := by
  intro t a r e
  unfold Peg.opt at e
  generalize hv : p t = v at e
  cases v with
  | ok b s => cases e; exact h _ _ _ hv
  | fail => cases e; exact ⟨[], rfl, trivial⟩
  | raise e => cases e

theorem rounds_ok {c : Text} {l : List α} (h : Rounds (fun c (_ : α) => Ok true c) c l) : Ok true c := by
  induction h with
  | nil => trivial
  | cons _ _ _ _ h _ ih => exact h.append ih

theorem N.many {p : P α} (h : N p) : N (many p) := (reads_many h).mono fun _ _ => rounds_ok

/-- The rule reads a part of a line and its end. -/
macro "midline" : tactic => `(tactic| repeat' first
  | with_reducible exact N.m N.nl
  | with_reducible exact N.em (Em.pure _) | with_reducible exact N.em (Em.act _)
  | with_reducible exact M.alts_nil
  | with_reducible assumption
  | with_reducible apply N.bind N.nl
  | with_reducible refine M.then (N.m N.nl) ?_
  | (with_reducible refine M.bind (by inline; done) ?_)
  | (refine M.bind (by inline; done) ?_)
  | with_reducible apply M.alts_cons
  | with_reducible apply M.alt
  | with_reducible apply N.bind (N.em (Em.act _))
  | intro _)

theorem N.indented {p : P α} (h : M p) : N (indented p) := N.many (N.sp fun _ => h)

theorem N.optLine {p : P α} (h : M p) : N (Peg.opt (do Peg.sp; p)) := N.opt (N.sp fun _ => h)

theorem version_M : M version := by
  unfold version
  refine M.bind (inl_alt (inLine_pat ?_) (inLine_pat ?_)) fun _ => M.then N.nl.m fun _ => N.em (Em.pure _)
  all_goals
    simp only [Re.chr, Re.Within]
    repeat' apply And.intro
    all_goals (intro c h e; subst e; revert h; decide)

theorem hostname_M : M (hostname g) := by unfold hostname; midline
theorem domainName_M : M (domainName g) := M.inl (by unfold domainName; inline)
theorem name_M : M (name s) := by unfold name; midline

theorem interfaceDetail_M : M (interfaceDetail g) := by
  have hk : ∀ {fam : String}, '\n' ∉ fam.toList → InLine (addressKey g fam) := inl_addressKey
  have h1 := hk (fam := "ip") (by decide)
  have h2 := hk (fam := "ipv6") (by decide)
  have h3 : ∀ x : Ifc.Line, M (pure x : P Ifc.Line) := fun x => M.inl (inLine_pure x)
  unfold interfaceDetail
  refine M.alts_cons ?_ <| M.alts_cons ?_ <| M.alts_cons ?_ <| M.alts_cons ?_ <| M.alts_cons ?_ <| M.alts_cons (h3 _) M.alts_nil
  all_goals midline

theorem interface_M : M (interface s) := by
  unfold interface
  refine M.bind (by inline) fun _ => M.bind (by inline) fun _ => M.bind (by inline) fun _ => M.then N.nl.m fun _ =>
    N.bind (N.indented interfaceDetail_M) fun _ => N.bind (N.em (Em.act _)) fun _ => N.em (Em.pure _)

theorem timeRangeObject_M : M (timeRangeObject g) := by
  have h1 := inl_time
  have h2 := inl_timedate (g := g)
  unfold timeRangeObject
  midline

theorem timeRange_M : M (timeRange s) := by
  unfold timeRange
  refine M.bind (by inline) fun _ => M.bind (by inline) fun _ => M.bind (by inline) fun _ => M.then N.nl.m fun _ =>
    N.bind (N.indented timeRangeObject_M) fun _ => N.bind (N.em (Em.act _)) fun _ => N.em (Em.pure _)

theorem objectNat_M (hs : s.Clean) : M (objectNat s) := by
  have h1 := inl_natInterfaces hs
  have h4 := inl_natMapped hs
  have h5 : InLine (objectNatHead s "dynamic") := by unfold objectNatHead; inline
  have h6 : InLine (objectNatHead s "static") := by unfold objectNatHead; inline
  have h7 : InLine (objectNatService s.env.guard) := by unfold objectNatService; inline
  have h8 : M (objectNatTail s.env.guard) := by unfold objectNatTail; midline
  unfold objectNat
  apply M.alt
  · exact M.bind h5 fun _ => M.then h8 fun _ => N.em (Em.pure _)
  · exact M.bind h6 fun _ => M.bind (by inline) fun _ => M.then h8 fun _ => N.em (Em.pure _)

theorem nat_M (hs : s.Clean) : M (nat s) := by
  have h1 := inl_natInterfaces hs
  have h2 := inl_natSrc hs
  have h3 := inl_natDst hs
  have h4 := hs.env.svcObjs
  have h5 := inl_natOption (g := s.env.guard)
  have h6 := inl_interfaceRef hs
  unfold nat
  apply M.alt
  · midline
  · exact M.inl (by inline)

theorem description_M : M (description g) := by unfold description; midline
theorem networkArgs_M : M (networkArgs g) := by unfold networkArgs; midline
theorem optDescription_N : N (optDescription g) := N.optLine description_M

theorem objectNetwork_M (hs : s.Clean) : M (objectNetwork s) := by
  unfold objectNetwork
  dsimp only
  refine M.bind (by inline) fun _ => M.bind (by inline) fun _ => M.bind (by inline) fun _ =>
    M.then (N.m (N.opt (N.bind N.nl fun _ => N.sp fun _ => M.alt (M.then networkArgs_M fun _ => N.em (Em.pure _))
      (M.then (objectNat_M hs) fun _ => N.em (Em.pure _))))) fun _ =>
    N.bind (N.optLine (objectNat_M hs)) fun _ => N.bind optDescription_N fun _ => N.bind (N.em (Em.act _)) fun _ => N.em (Em.pure _)

theorem serviceArgs_M : M (serviceArgs g) := by
  have h1 := inl_svcIcmp (g := g)
  have h2 := inl_svcPorts (g := g)
  have h3 := inl_protocolNumber
  unfold serviceArgs
  midline

theorem objectService_M : M (objectService s) := by
  unfold objectService
  dsimp only
  refine M.bind (by inline) fun _ => M.bind (by inline) fun _ => M.bind (by inline) fun _ =>
    M.then (N.m (N.opt (N.bind N.nl fun _ => N.sp fun _ => serviceArgs_M))) fun _ =>
    N.bind optDescription_N fun _ => N.bind (N.em (Em.act _)) fun _ => N.em (Em.pure _)

theorem object_M (hs : s.Clean) : M (object s) := by
  unfold object
  exact M.bind (by inline) fun _ => M.bind (by inline) fun _ => M.alt (objectNetwork_M hs) objectService_M

theorem M.raise (e : PyErr) : M (alts [act (.error e : Py α)]) := by
  intro t a r h
  cases h

theorem networkMember_M {e : Env} (he : e.Clean) : M (networkMember e) := by
  have hn := he.names
  have n1 : InLine (nameWs e) := inLine_refer hn
  have n2 : InLine (nameSlash e) := inLine_refer hn
  have h1 := he.netObjs
  have h2 := he.netGroups
  unfold networkMember
  refine M.alts_cons (by midline) <| M.alts_cons (by midline) <| M.alts_cons (by midline) <| M.alts_cons (by midline) <|
    M.alts_cons (by midline) <| M.raise _

theorem portMember_M {e : Env} (he : e.Clean) : M (portMember e) := by
  have h1 := he.portGroups
  unfold portMember
  refine M.alts_cons (by midline) <| M.alts_cons (by midline) <| M.alts_cons (by midline) <|
    M.alts_cons (M.inl (inLine_pure _)) M.alts_nil

theorem serviceMember_M {e : Env} (he : e.Clean) : M (serviceMember e) := by
  have h1 := inl_svcIcmp (g := e.guard)
  have h2 := inl_svcPorts (g := e.guard)
  have h3 := inl_protocolNumber
  have h4 := he.svcObjs
  have h5 := he.svcGroups
  unfold serviceMember
  refine M.alts_cons (by midline) <| M.alts_cons (by midline) <| M.alts_cons (by midline) <| M.alts_cons (by midline) <|
    M.alts_cons (by midline) <| M.raise _

theorem icmpMember_M {e : Env} (he : e.Clean) : M (icmpMember e) := by
  have h1 := he.icmpGroups
  unfold icmpMember
  refine M.alts_cons (by midline) <| M.alts_cons (by midline) <| M.raise _

theorem protocolMember_M {e : Env} (he : e.Clean) : M (protocolMember e) := by
  have h1 := he.protoGroups
  unfold protocolMember
  refine M.alts_cons (by midline) <| M.alts_cons (by midline) <| M.raise _

theorem groupBody_M {m : P α} (hm : M m) : M (groupBody g m) := by
  unfold groupBody
  exact M.bind (by inline) fun _ => M.bind (by inline) fun _ => M.bind (by inline) fun _ => M.then N.nl.m fun _ =>
    N.bind optDescription_N fun _ => N.bind (N.indented hm) fun _ => N.em (Em.pure _)

theorem objectGroup_M (hs : s.Clean) : M (objectGroup s) := by
  have he := hs.env
  unfold objectGroup
  refine M.bind (by inline) fun _ => M.bind (by inline) fun _ => ?_
  unfold objectGroupType
  dsimp only
  refine M.alts_cons ?_ <| M.alts_cons ?_ <| M.alts_cons ?_ <| M.alts_cons ?_ <| M.alts_cons ?_ M.alts_nil
  · exact M.bind (by inline) fun _ => M.then (groupBody_M (networkMember_M he)) fun _ => N.em (Em.pure _)
  · exact M.bind (by inline) fun _ => M.bind (by inline) fun _ => M.bind (by inline) fun _ => M.bind (by inline) fun _ =>
      M.bind (by inline) fun _ => M.bind (by inline) fun _ => M.then N.nl.m fun _ =>
      N.bind optDescription_N fun _ => N.bind (N.indented (portMember_M he)) fun _ => N.bind (N.em (Em.act _)) fun _ =>
      N.em (Em.pure _)
  · exact M.bind (by inline) fun _ => M.then (groupBody_M (serviceMember_M he)) fun _ => N.em (Em.pure _)
  · exact M.bind (by inline) fun _ => M.then (groupBody_M (icmpMember_M he)) fun _ => N.em (Em.pure _)
  · exact M.bind (by inline) fun _ => M.then (groupBody_M (protocolMember_M he)) fun _ => N.em (Em.pure _)

theorem accessGroup_M : M (accessGroup g) := by
  unfold accessGroup
  midline

theorem ignoredIndent_N : N ignoredIndent := by
  unfold ignoredIndent
  exact N.bind (N.many (N.bind (N.opt N.nl) fun _ => N.sp fun _ => M.bind inl_toeol fun _ => N.nl.m)) fun _ => N.em (Em.pure _)

theorem tail_M (k : Tail) : M (tail k) := by
  cases k
  · exact M.bind inLine_ws fun _ => M.bind inl_toeol fun _ => N.nl.m
  · exact M.bind inl_toeol fun _ => N.nl.m
  · exact M.bind (by inline) fun _ => N.nl.m
  · exact N.nl.m
  · exact M.bind inLine_ws fun _ => M.bind inl_toeol fun _ => M.then N.nl.m fun _ => ignoredIndent_N
  · exact M.bind inl_toeol fun _ => M.then N.nl.m fun _ => ignoredIndent_N

theorem M.alts_map {l : List (P α)} (h : ∀ p ∈ l, M p) : M (alts l) := by
  induction l with
  | nil => exact M.alts_nil
  | cons p l ih => exact M.alts_cons (h p (by simp)) (ih fun q hq => h q (by simp [hq]))

theorem ignored_M : M (ignored g) := by
  unfold ignored
  apply M.alts_map
  intro p hp
  obtain ⟨kt, hk, rfl⟩ := List.mem_map.1 hp
  have : ∀ kt ∈ ignoredList, '\n' ∉ kt.1.toList := by decide +kernel
  exact M.bind (inLine_tok _ (this kt hk)) fun _ => M.then (tail_M _) fun _ => N.em (Em.pure _)

theorem oneLine_ok {l : List Char} (h : OneLine l) : Ok false l := by
  obtain ⟨u, rfl, hu⟩ := h
  exact .line hu ⟨fun e => (by cases e), trivial⟩

theorem Ok.true_of_a {c : List Char} (h : Ok false c) (ha : c = [] ∨ c.head? = some 'a') : Ok true c := by
  cases c with
  | nil => trivial
  | cons x c =>
    rcases ha with ha | ha
    · cases ha
    · simp at ha
      subst ha
      exact ⟨fun _ => by decide, h.2⟩

theorem spaced_a {l : List String} {h : List Char} (hs : Spaced ("access-list" :: l) h) (u : List Char) : (h ++ u).head? = some 'a' := by
  obtain ⟨z, rfl⟩ := spaced_head hs
  rfl

theorem remarks_ok {c : List Char} {rs : List (List Char)} (h : RemarkLines c rs) : Ok true c := by
  induction h with
  | nil => trivial
  | cons i h r d l hi hs hn _ ih =>
    have hno : '\n' ∉ h := spaced_noNl hs (by
      intro w hw
      simp only [List.mem_cons, List.not_mem_nil, or_false] at hw
      rcases hw with rfl | rfl | rfl
      · decide
      · exact idWord_noNl hi
      · decide)
    have e : Ok false (h ++ (' ' :: r) ++ '\n' :: d) := .line (by simp [hno, hn]) ⟨fun e => (by cases e), ih⟩
    refine Ok.true_of_a (by simpa using e) (Or.inr ?_)
    exact spaced_a hs _

theorem accessList_M {e : Env} (he : e.Clean) : M (accessList e) := by
  intro t a r h
  cases a with
  | some x =>
    obtain ⟨remarks, line, rfl, hr, ⟨hl, hd, b, w, hs, -, rfl⟩, -⟩ := C69_one_rule_one_line _ he _ _ _ h
    refine ⟨remarks ++ (hd ++ b :: w), by simp, ?_⟩
    exact (remarks_ok hr).weaken.append ((oneLine_ok hl).true_of_a (Or.inr (spaced_a hs _)))
  | none =>
    obtain ⟨c1, rs, c, i, hd, w, rfl, hr, hl, hi, hsp, rfl⟩ := C69_dropped_is_ethertype _ _ _ h
    refine ⟨c1 ++ (hd ++ w), by simp, ?_⟩
    exact (remarks_ok hr).weaken.append ((oneLine_ok hl).true_of_a (Or.inr (spaced_a hsp _)))

theorem keep_M {p : P Item} (h : M p) : M (keep s p) := M.then h fun _ => N.em (Em.pure _)

/-- Behind every line end inside of a command stands a blank, an `a` or another line end. -/
theorem command_M (hs : s.Clean) : M (command s) := by
  unfold command
  dsimp only
  refine M.alts_cons (keep_M version_M) <| M.alts_cons (keep_M hostname_M) <| M.alts_cons (keep_M domainName_M) <|
    M.alts_cons interface_M <| M.alts_cons name_M <| M.alts_cons timeRange_M <| M.alts_cons (object_M hs) <|
    M.alts_cons (objectGroup_M hs) <| M.alts_cons (keep_M (M.then (accessList_M hs.env) fun _ => N.em (Em.pure _))) <|
    M.alts_cons (keep_M (M.then ?_ fun _ => N.em (Em.pure _))) <| M.alts_cons (keep_M accessGroup_M) <|
    M.alts_cons (keep_M (nat_M hs)) <| M.alts_cons (keep_M ignored_M) <|
    M.alts_cons (keep_M (M.then N.nl.m fun _ => N.em (Em.pure _))) M.alts_nil
  intro t a r h
  obtain ⟨c, rfl, hr, -⟩ := remarks_reads _ _ _ h
  exact ⟨c, rfl, (remarks_ok hr).weaken⟩

theorem Ok.mid {b : Bool} {a c : List Char} {x : Char} (h : Ok b (a ++ '\n' :: x :: c)) : InC x := by
  induction a generalizing b with
  | nil => exact h.2.1 rfl
  | cons y a ih => exact ih h.2

/-- At the beginning of a line or of the text. -/
def LineStart (a : List Char) : Prop := a = [] ∨ ∃ b, a = b ++ ['\n']

/-- **A line that begins with no blank, no `a` and is not empty begins a command.** -/
theorem commands_sync {n : Nat} : ∀ {s : St} {t a u : List Char} {x : Char} {l : List Item} {s' : St}, t.length = n → s.Clean →
    t = a ++ x :: u → LineStart a → ¬ InC x → commands s t = .ok (l, s') [] →
    ∃ s1 l1, s1.Clean ∧ commands s1 (x :: u) = .ok (l1, s') [] := by
  induction n using Nat.strongRecOn with
  | _ n ih =>
    intro s t a u x l s' hlen hs ht ha hx h
    by_cases e : a = []
    · subst e
      exact ⟨s, l, hs, by simpa [ht] using h⟩
    have h0 := h
    rw [commands] at h
    generalize hc : command s t = v at h
    have tne : t ≠ [] := by rw [ht]; simp
    cases v with
    | fail => cases h; exact absurd rfl tne
    | raise e => cases h
    | ok y r =>
      obtain ⟨i, s1⟩ := y
      simp only at h
      split at h
      · rename_i hlt
        generalize hq : commands s1 r = w at h
        cases w with
        | fail => cases h
        | raise e => cases h
        | ok z v =>
          obtain ⟨l', s2⟩ := z
          cases h
          have hs1 : s1.Clean := command_clean hs _ _ _ hc
          obtain ⟨c, hcr, hok⟩ := command_M hs _ _ _ hc
          obtain ⟨b, rfl⟩ := ha.resolve_left e
          -- where does the command end?
          have hlen' := congrArg List.length (ht.symm.trans hcr)
          rcases Nat.lt_or_ge (b ++ ['\n']).length c.length with hl | hg
          · exfalso
            have p1 : (b ++ ['\n']) ++ [x] <+: t := ⟨u, by rw [ht]; simp⟩
            have p2 : c <+: t := ⟨r, hcr.symm⟩
            obtain ⟨d, rfl⟩ := List.prefix_of_prefix_length_le p1 p2 (by simp at hl ⊢; omega)
            refine hx (Ok.mid (b := false) (a := b) (c := d) ?_)
            simpa using hok
          · have p1 : c <+: t := ⟨r, hcr.symm⟩
            have p2 : b ++ ['\n'] <+: t := ⟨x :: u, ht.symm⟩
            obtain ⟨d, hd⟩ := List.prefix_of_prefix_length_le p1 p2 hg
            have hr : r = d ++ x :: u := by
              have : c ++ r = c ++ (d ++ x :: u) := by rw [← hcr, ht, ← hd]; simp
              exact List.append_cancel_left this
            refine ih r.length (by omega) rfl hs1 hr ?_ hx hq
            by_cases ed : d = []
            · exact Or.inl ed
            · refine Or.inr ⟨d.dropLast, ?_⟩
              have : d.getLast ed = '\n' := by
                have h1 : (c ++ d).getLast? = some '\n' := by rw [hd]; simp
                rw [List.getLast?_append, List.getLast?_eq_some_getLast ed] at h1
                simpa using h1
              rw [← this, List.dropLast_concat_getLast ed]
      · cases h; exact absurd rfl tne

end Acltk.FwsmText
