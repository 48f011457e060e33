import Verif.Lemmas.FwsmClean
/-!
# C70: no access-list rule of a configuration is lost
-/
namespace Acltk.FwsmText
open Acltk Acltk.Lookup Acltk.Peg Acltk.AclText

variable {α β : Type} {g : Guard} {s : St}

/-- What identifies the line a rule comes from. -/
def headerOf : Item → Option (String × String × String)
  | .rule r => some (r.id, r.extended, r.mode)
  | _ => none

/-- The name of the list, the kind and the action of every rule of the result, in order. -/
def headers (l : List Item) : List (String × String × String) := l.filterMap headerOf

/-! ## the words of a line are determined by the line -/

theorem split_unique {q : Char → Prop} {b c u v : List Char} (hb : ∀ x ∈ b, q x) (hc : ∀ x ∈ c, q x)
    (hu : ∀ x ∈ u.head?, ¬ q x) (hv : ∀ x ∈ v.head?, ¬ q x) (h : b ++ u = c ++ v) : b = c ∧ u = v := by
  induction b generalizing c with
  | nil =>
    cases c with
    | nil => exact ⟨rfl, h⟩
    | cons y c =>
      simp at h
      subst h
      exact absurd (hc y (by simp)) (hu y (by simp))
  | cons x b ih =>
    cases c with
    | nil =>
      simp at h
      subst h
      exact absurd (hb x (by simp)) (hv x (by simp))
    | cons y c =>
      simp at h
      obtain ⟨rfl, h⟩ := h
      obtain ⟨rfl, rfl⟩ := ih (fun z hz => hb z (by simp [hz])) (fun z hz => hc z (by simp [hz])) h
      exact ⟨rfl, rfl⟩

theorem idChar_notBlank {i : String} (hi : IdWord i) : ∀ c ∈ i.toList, ¬ (c = ' ' ∨ c = '\t') := by
  intro c hc hb
  rcases hi.2 c hc with h | h
  · rcases hb with rfl | rfl <;> exact absurd h (by decide)
  · rcases hb with rfl | rfl <;> simp at h

theorem head_append_word {w : String} (hw : ∃ c l, w.toList = c :: l ∧ ¬ (c = ' ' ∨ c = '\t')) (u : List Char) :
    ∀ x ∈ (w.toList ++ u).head?, ¬ (x = ' ' ∨ x = '\t') := by
  obtain ⟨c, l, e, hc⟩ := hw
  rw [e]
  intro x hx
  simp at hx
  subst hx
  exact hc

theorem idWord_first {i : String} (hi : IdWord i) : ∃ c l, i.toList = c :: l ∧ ¬ (c = ' ' ∨ c = '\t') := by
  cases e : i.toList with
  | nil => exact absurd (by rw [← String.ofList_toList (s := i), e]; rfl) hi.1
  | cons c l => exact ⟨c, l, rfl, idChar_notBlank hi c (by rw [e]; simp)⟩

/-- Blanks and a word in front of the same text. -/
theorem word_unique {b c u v : List Char} {i j : String} (hb : Blanks b) (hc : Blanks c) (hi : IdWord i) (hj : IdWord j)
    (hu : ∃ x l, u = x :: l ∧ (x = ' ' ∨ x = '\t')) (hv : ∃ x l, v = x :: l ∧ (x = ' ' ∨ x = '\t'))
    (h : b ++ (i.toList ++ u) = c ++ (j.toList ++ v)) : i = j ∧ u = v := by
  obtain ⟨rfl, h2⟩ := split_unique (q := fun x => x = ' ' ∨ x = '\t') hb hc (head_append_word (idWord_first hi) u)
    (head_append_word (idWord_first hj) v) h
  obtain ⟨x, l, rfl, hx⟩ := hu
  obtain ⟨y, m, rfl, hy⟩ := hv
  obtain ⟨e, h⟩ := split_unique (q := fun x => ¬ (x = ' ' ∨ x = '\t')) (u := x :: l) (v := y :: m) (idChar_notBlank hi) (idChar_notBlank hj)
    (by intro z hz; rw [List.head?_cons] at hz; cases hz; exact fun f => f hx) (by intro z hz; rw [List.head?_cons] at hz; cases hz; exact fun f => f hy) h2
  exact ⟨String.toList_inj.1 e, h⟩

/-- The parts of a line that begins with `access-list i`. -/
theorem spaced_three {i w : String} {h : List Char} (hs : Spaced ["access-list", i, w] h) :
    ∃ b c, b ≠ [] ∧ Blanks b ∧ c ≠ [] ∧ Blanks c ∧ h = AL ++ (b ++ (i.toList ++ (c ++ w.toList))) := by
  cases hs with
  | cons _ b _ _ hb hb' h2 =>
    cases h2 with
    | cons _ c _ _ hc hc' h3 =>
      cases h3 with
      | one => exact ⟨b, c, hb, hb', hc, hc', rfl⟩
      | cons _ _ _ _ _ _ h4 => cases h4

theorem spaced_four {i k m : String} {h : List Char} (hs : Spaced ["access-list", i, k, m] h) :
    ∃ b c d, b ≠ [] ∧ Blanks b ∧ c ≠ [] ∧ Blanks c ∧ d ≠ [] ∧ Blanks d ∧
      h = AL ++ (b ++ (i.toList ++ (c ++ (k.toList ++ (d ++ m.toList))))) := by
  cases hs with
  | cons _ b _ _ hb hb' h2 =>
    cases h2 with
    | cons _ c _ _ hc hc' h3 =>
      cases h3 with
      | cons _ d _ _ hd hd' h4 =>
        cases h4 with
        | one => exact ⟨b, c, d, hb, hb', hc, hc', hd, hd', rfl⟩
        | cons _ _ _ _ _ _ h5 => cases h5

theorem blanks_cons {b u : List Char} (hb : b ≠ []) (hb' : Blanks b) : ∃ x l, b ++ u = x :: l ∧ (x = ' ' ∨ x = '\t') := by
  cases b with
  | nil => exact absurd rfl hb
  | cons x b => exact ⟨x, b ++ u, rfl, hb' x (by simp)⟩

theorem kind_first {k : String} (h : k ∈ ["extended", "standard", "webtype"]) : IdWord k := by
  simp only [List.mem_cons, List.not_mem_nil, or_false] at h
  rcases h with rfl | rfl | rfl <;> exact ⟨by decide, by decide⟩

theorem mode_first {k : String} (h : k ∈ ["permit", "deny"]) : IdWord k := by
  simp only [List.mem_cons, List.not_mem_nil, or_false] at h
  rcases h with rfl | rfl <;> exact ⟨by decide, by decide⟩

/-- A line has at most one header. -/
theorem Header.unique {l : List Char} {i k m i' k' m' : String} (h : Header l i k m) (h' : Header l i' k' m') :
    i = i' ∧ k = k' ∧ m = m' := by
  obtain ⟨hi, hk, hm, hd, x, u, hs, hx, rfl⟩ := h
  obtain ⟨hi', hk', hm', hd', x', u', hs', hx', e⟩ := h'
  obtain ⟨b, c, d, hb, hb', hc, hc', hd, hd', rfl⟩ := spaced_four hs
  obtain ⟨b2, c2, d2, hb2, hb2', hc2, hc2', hd2, hd2', rfl⟩ := spaced_four hs'
  simp only [List.append_assoc] at e
  have e1 := List.append_cancel_left e
  obtain ⟨rfl, e2⟩ := word_unique hb' hb2' hi hi' (blanks_cons hc hc') (blanks_cons hc2 hc2') e1
  obtain ⟨rfl, e3⟩ := word_unique hc' hc2' (kind_first hk) (kind_first hk') (blanks_cons hd hd') (blanks_cons hd2 hd2') e2
  obtain ⟨rfl, -⟩ := word_unique hd' hd2' (mode_first hm) (mode_first hm') ⟨_, _, rfl, hx⟩ ⟨_, _, rfl, hx'⟩ e3
  exact ⟨rfl, rfl, rfl⟩

/-- A line whose third word is something else has no header. -/
theorem notHeader_of {w i : String} (hi : IdWord i) (hw : IdWord w)
    (hk : ∀ k ∈ ["extended", "standard", "webtype"], w.toList.isPrefixOf k.toList = false ∧ k.toList.isPrefixOf w.toList = false)
    {h u : List Char} (hs : Spaced ["access-list", i, w] h) (j k m : String) : ¬ Header (h ++ u) j k m := by
  rintro ⟨hj, hk', hm', hd', x', u', hs', hx', e⟩
  obtain ⟨b, c, hb, hb', hc, hc', rfl⟩ := spaced_three hs
  obtain ⟨b2, c2, d2, hb2, hb2', hc2, hc2', hd2, hd2', rfl⟩ := spaced_four hs'
  simp only [List.append_assoc] at e
  have e1 := List.append_cancel_left e
  obtain ⟨rfl, e2⟩ := word_unique hb' hb2' hi hj (blanks_cons hc hc') (blanks_cons hc2 hc2') e1
  obtain ⟨-, e3⟩ := split_unique (q := fun x => x = ' ' ∨ x = '\t') hc' hc2' (head_append_word (idWord_first hw) _)
    (head_append_word (idWord_first (kind_first hk')) _) e2
  obtain ⟨h1, h2⟩ := hk k hk'
  have p1 : w.toList <+: w.toList ++ u := ⟨_, rfl⟩
  have p2 : k.toList <+: w.toList ++ u := ⟨_, e3.symm⟩
  rcases List.prefix_or_prefix_of_prefix p1 p2 with p | p
  · rw [List.isPrefixOf_iff_prefix.2 p] at h1; cases h1
  · rw [List.isPrefixOf_iff_prefix.2 p] at h2; cases h2

theorem remark_notHeader {i : String} (hi : IdWord i) {h u : List Char} (hs : Spaced ["access-list", i, "remark"] h) (j k m : String) :
    ¬ Header (h ++ u) j k m :=
  notHeader_of hi ⟨by decide, by decide⟩ (by decide +kernel) hs j k m

theorem ethertype_notHeader {i : String} (hi : IdWord i) {h u : List Char} (hs : Spaced ["access-list", i, "ethertype"] h)
    (j k m : String) : ¬ Header (h ++ u) j k m :=
  notHeader_of hi ⟨by decide, by decide⟩ (by decide +kernel) hs j k m

theorem Other.notHeader {l : List Char} (h : Other l) (i k m : String) : ¬ Header l i k m := by
  rcases h with h | ⟨j, w, hd, u, hj, hw, hs, rfl⟩
  · rintro ⟨-, -, -, hd, b, u, hs, -, rfl⟩
    obtain ⟨z, rfl⟩ := spaced_head hs
    exact h ⟨z ++ b :: u, by simp⟩
  · simp only [List.mem_cons, List.not_mem_nil, or_false] at hw
    rcases hw with rfl | rfl
    · exact remark_notHeader hj hs i k m
    · exact ethertype_notHeader hj hs i k m

/-! ## what one command contributes -/

/-- A line without a header is quiet. -/
theorem quiet_line {p l : List Char} (hl : OneLine l) (hp : p = [] ∨ Dead p) (hh : ∀ u, l = u ++ ['\n'] → Other u) :
    Quiet p l [] := by
  obtain ⟨u, rfl, hu⟩ := hl
  refine (Quiet.line hu).append (.nl _ _ _ ?_ (.nil _))
  rcases hp with rfl | hp
  · exact hh u rfl
  · exact (hp.append u).other

theorem quiet_remarks {c : List Char} {rs : List (List Char)} (h : RemarkLines c rs) {p : List Char} (hp : p = [] ∨ Dead p) :
    Quiet p c (if c = [] then p else []) := by
  induction h generalizing p with
  | nil => exact .nil _
  | cons i h r d l hi hs hn _ ih =>
    have h1 : Quiet p (h ++ (' ' :: (r ++ ['\n']))) [] := by
      have hno : '\n' ∉ h := spaced_noNl hs (by
        intro w hw
        simp only [List.mem_cons, List.not_mem_nil, or_false] at hw
        rcases hw with rfl | rfl | rfl
        · decide
        · exact idWord_noNl hi
        · decide)
      refine quiet_line ⟨h ++ (' ' :: r), by simp, by simp [hno, hn]⟩ hp ?_
      intro u hu
      have : u = h ++ (' ' :: r) := by
        have : u ++ ['\n'] = (h ++ (' ' :: r)) ++ ['\n'] := by rw [← hu]; simp
        exact List.append_cancel_right this
      subst this
      exact Or.inr ⟨i, "remark", h, _, hi, by decide, hs, rfl⟩
    have h2 := ih (p := []) (Or.inl rfl)
    have h3 : Quiet [] d [] := by
      by_cases e : d = []
      · subst e; exact .nil _
      · simpa [e] using h2
    have := h1.append h3
    simpa using this

theorem quiet_rules {p c q r : List Char} {hs : List (String × String × String)} (h : Quiet p c q) (hp : '\n' ∉ p)
    (hr : RuleLinesIndented (q ++ r) hs) : RuleLinesIndented (p ++ (c ++ r)) hs := by
  induction h with
  | nil p => exact hr
  | chr p x c q hx _ ih =>
    have := ih (by
      simp only [List.mem_append, List.mem_singleton, not_or]
      exact ⟨hp, fun e => hx e.symm⟩) hr
    simpa using this
  | nl p c q hn _ ih =>
    have := ih (by simp) hr
    exact .other _ _ _ hp hn this

/-- The item is no rule. -/
def NoRule (x : Item × St) : Prop := headerOf x.1 = none

macro "norule" : tactic => `(tactic| repeat' first
  | exact Val.pure rfl | with_reducible exact Val.alts_nil | with_reducible apply Val.alt | with_reducible apply Val.alts_cons
  | with_reducible apply Val.skip | apply Val.skip | intro _)

theorem keep_norule {p : P Item} (h : Val p (fun i => headerOf i = none)) : Val (keep s p) NoRule :=
  Val.bind h fun _ hi => Val.pure hi

theorem version_norule : Val (version) (fun i => headerOf i = none) := by
  unfold version
  norule

theorem hostname_norule : Val (hostname g) (fun i => headerOf i = none) := by
  unfold hostname
  norule

theorem domainName_norule : Val (domainName g) (fun i => headerOf i = none) := by
  unfold domainName
  norule

theorem accessGroup_norule : Val (accessGroup g) (fun i => headerOf i = none) := by
  unfold accessGroup
  norule

theorem natItem_header (n : Option NatCmd.Nat') : headerOf (natItem n) = none := by cases n <;> rfl

theorem nat_norule : Val (nat s) (fun i => headerOf i = none) := by
  unfold nat
  refine Val.alt ?_ (by norule)
  repeat' first
    | exact Val.pure (natItem_header _) | with_reducible apply Val.skip | apply Val.skip | intro _

theorem interface_norule : Val (interface s) NoRule := by
  unfold interface
  norule

theorem name_norule : Val (name s) NoRule := by
  unfold name
  norule

theorem timeRange_norule : Val (timeRange s) NoRule := by
  unfold timeRange
  norule

theorem object_norule : Val (object s) NoRule := by
  unfold object objectNetwork objectService
  norule

theorem objectGroup_norule : Val (objectGroup s) NoRule := by
  unfold objectGroup objectGroupType
  norule

/-- What a command does: it gives no rule and reads no rule line, or it is an access-list command. -/
theorem command_cases (hs : s.Clean) {pre t r : List Char} {i : Item} {s' : St} (hn : '\n' ∉ pre) (hE : SE pre t)
    (h : command s t = .ok (i, s') r) :
    (headerOf i = none ∧ ∃ c q, t = c ++ r ∧ Quiet pre c q ∧ SE q r) ∨
    (∃ x, i = .rule x ∧ accessList s.env t = .ok (some x) r) := by
  have quiet : ∀ {p : P (Item × St)}, Val p NoRule → T SX p SE → p t = .ok (i, s') r →
      headerOf i = none ∧ ∃ c q, t = c ++ r ∧ Quiet pre c q ∧ SE q r := by
    intro p hv hT hp
    exact ⟨hv _ _ _ hp, hT _ _ _ _ hn hE.sx hp⟩
  have kT : ∀ {p : P Item} {B : As}, T SX p B → T SX (keep s p) B := fun h => T.bind h fun _ => T.pure _
  have s0 : ∀ {p : P (Item × St)}, T SX p S0 → T SX p SE := fun h => h.post fun _ _ h => h.se
  unfold command at h
  rcases alt_inv h with h | h
  · exact Or.inl (quiet (keep_norule version_norule) (s0 (kT version_T)) h)
  rcases alt_inv h with h | h
  · exact Or.inl (quiet (keep_norule hostname_norule) (s0 (kT hostname_T)) h)
  rcases alt_inv h with h | h
  · exact Or.inl (quiet (keep_norule domainName_norule) (kT domainName_T) h)
  rcases alt_inv h with h | h
  · exact Or.inl (quiet interface_norule interface_T h)
  rcases alt_inv h with h | h
  · exact Or.inl (quiet name_norule (s0 name_T) h)
  rcases alt_inv h with h | h
  · exact Or.inl (quiet timeRange_norule timeRange_T h)
  rcases alt_inv h with h | h
  · exact Or.inl (quiet object_norule (object_T hs) h)
  rcases alt_inv h with h | h
  · exact Or.inl (quiet objectGroup_norule (objectGroup_T hs) h)
  rcases alt_inv h with h | h
  · obtain ⟨a, u, h1, h2⟩ := bind_inv h
    obtain ⟨b, v, h3, h4⟩ := bind_inv h1
    cases h2
    cases h4
    cases b with
    | some x => exact Or.inr ⟨x, rfl, h3⟩
    | none =>
      refine Or.inl ⟨rfl, ?_⟩
      obtain ⟨c1, rs, c, i, hd, w, rfl, hr, hl, hi, hsp, rfl⟩ := C69_dropped_is_ethertype _ _ _ h3
      have hX := hE.sx
      refine ⟨c1 ++ (hd ++ w), [], by simp, ?_, Or.inl rfl⟩
      refine (quiet_remarks hr hX).append (quiet_line hl ?_ ?_)
      · split
        · exact hX
        · exact Or.inl rfl
      · obtain ⟨u', hu', hn'⟩ := hl
        intro u hu
        have : u = u' := List.append_cancel_right (hu.symm.trans hu')
        subst this
        have : ∃ w', u = hd ++ w' := by
          have hp : hd <+: u ++ ['\n'] := ⟨w, hu⟩
          have hno : '\n' ∉ hd := spaced_noNl hsp (by
            intro w hw
            simp only [List.mem_cons, List.not_mem_nil, or_false] at hw
            rcases hw with rfl | rfl | rfl
            · decide
            · exact idWord_noNl hi
            · decide)
          have hlen : hd.length ≤ u.length := by
            rcases Nat.lt_or_ge u.length hd.length with hlt | hge
            · exfalso
              have hle := hp.length_le
              simp at hle
              have : hd = u ++ ['\n'] := hp.eq_of_length (by simp; omega)
              rw [this] at hno
              simp at hno
            · exact hge
          obtain ⟨z, hz⟩ := List.prefix_of_prefix_length_le hp ⟨['\n'], rfl⟩ hlen
          exact ⟨z, hz.symm⟩
        obtain ⟨w', rfl⟩ := this
        exact Or.inr ⟨i, "ethertype", hd, _, hi, by decide, hsp, rfl⟩
  rcases alt_inv h with h | h
  · obtain ⟨a, u, h1, h2⟩ := bind_inv h
    obtain ⟨b, v, h3, h4⟩ := bind_inv h1
    cases h2
    cases h4
    refine Or.inl ⟨rfl, ?_⟩
    obtain ⟨c, rfl, hr, -⟩ := remarks_reads _ _ _ h3
    refine ⟨c, _, rfl, quiet_remarks hr hE.sx, ?_⟩
    split
    · rename_i e
      subst e
      exact hE
    · exact Or.inl rfl
  rcases alt_inv h with h | h
  · exact Or.inl (quiet (keep_norule accessGroup_norule) (s0 (kT accessGroup_T)) h)
  rcases alt_inv h with h | h
  · exact Or.inl (quiet (keep_norule nat_norule) (kT (nat_T hs)) h)
  rcases alt_inv h with h | h
  · refine Or.inl (quiet (keep_norule ?_) (s0 (kT ignored_T)) h)
    unfold ignored
    generalize ignoredList = l
    induction l with
    | nil => exact Val.alts_nil
    | cons x l ih => exact Val.alts_cons (Val.skip fun _ => Val.skip fun _ => Val.pure rfl) ih
  rcases alt_inv h with h | h
  · exact Or.inl (quiet (keep_norule (by norule)) (s0 (kT (T.bind T.nl fun _ => T.pure _))) h)
  cases h

/-- The text of a rule line without its end. -/
theorem rule_line {r : PRule} {l : List Char} (h : LineBeginning ["access-list", r.id, r.extended, r.mode] l) (hi : IdWord r.id)
    (hk : r.extended ∈ ["extended", "standard", "webtype"]) (hm : r.mode ∈ ["permit", "deny"]) :
    ∃ u, l = u ++ ['\n'] ∧ '\n' ∉ u ∧ Header u r.id r.extended r.mode := by
  obtain ⟨⟨u, rfl, hu⟩, hd, b, w, hs, hb, e⟩ := h
  refine ⟨u, rfl, hu, hi, hk, hm, hd, b, ?_⟩
  have hw : w ≠ [] := by
    rintro rfl
    have : (u ++ ['\n']).getLast? = (hd ++ [b]).getLast? := by rw [e]
    simp at this
    rcases hb with rfl | rfl <;> exact absurd this (by decide)
  obtain ⟨w', x, rfl⟩ : ∃ w' x, w = w' ++ [x] := ⟨w.dropLast, w.getLast hw, (List.dropLast_concat_getLast hw).symm⟩
  have e2 : u ++ ['\n'] = (hd ++ (b :: w')) ++ [x] := by rw [e]; simp
  have := List.append_inj' e2 rfl
  exact ⟨w', hs, hb, this.1⟩

/-! ## the whole text -/

theorem commands_lines {n : Nat} : ∀ {s : St} {pre t : List Char} {l : List Item} {s' : St}, t.length = n → s.Clean → '\n' ∉ pre →
    SE pre t → commands s t = .ok (l, s') [] → RuleLinesIndented (pre ++ t) (headers l) := by
  induction n using Nat.strongRecOn with
  | _ n ih =>
    intro s pre t l s' hlen hs hn hE h
    have stop : ∀ {t : List Char}, t = [] → SE pre t → RuleLinesIndented (pre ++ t) (headers []) := by
      rintro t rfl hE
      refine .last _ (by simpa using hn) ?_
      rw [List.append_nil]
      rcases hE with rfl | ⟨hd, -⟩
      · exact .nil
      · exact hd.other
    rw [commands] at h
    generalize hc : command s t = v at h
    cases v with
    | fail => cases h; exact stop rfl hE
    | raise e => cases h
    | ok x r =>
      obtain ⟨i, s1⟩ := x
      simp only at h
      split at h
      · rename_i hlt
        generalize hq : commands s1 r = w at h
        cases w with
        | fail => cases h
        | raise e => cases h
        | ok y u =>
          obtain ⟨l', s2⟩ := y
          cases h
          have hs1 : s1.Clean := command_clean hs _ _ _ hc
          rcases command_cases hs hn hE hc with ⟨hi, c, q, rfl, hqt, hE'⟩ | ⟨x, rfl, ha⟩
          · have hrec := ih r.length (by omega) rfl hs1 (hqt.noNl hn) hE' hq
            have he : headers (i :: l') = headers l' := by simp [headers, hi]
            rw [he]
            exact quiet_rules hqt hn hrec
          · obtain ⟨remarks, line, rfl, hr, hl, hid, hk, hm⟩ := C69_one_rule_one_line _ hs.env _ _ _ ha
            obtain ⟨u, rfl, hu, hh⟩ := rule_line hl hid hk hm
            have hrec := ih r.length (by omega) (pre := []) rfl hs1 (by simp) (Or.inl rfl) hq
            have he : headers (.rule x :: l') = (x.id, x.extended, x.mode) :: headers l' := by simp [headers, headerOf]
            rw [he]
            have col0 : RuleLinesIndented (u ++ '\n' :: r) ((x.id, x.extended, x.mode) :: headers l') :=
              .rule _ _ _ _ _ _ hu hh (by simpa using hrec)
            by_cases e : remarks = []
            · subst e
              have hpre : pre = [] ∨ (pre ≠ [] ∧ ∀ c ∈ pre, c = ' ') := by
                by_cases e : pre = []
                · exact Or.inl e
                · refine Or.inr ⟨e, ?_⟩
                  rcases hE with h | ⟨h1, h2 | h2⟩
                  · exact absurd h e
                  · exfalso
                    obtain ⟨-, -, -, hd, b, w, hsp, -, rfl⟩ := hh
                    obtain ⟨z, rfl⟩ := spaced_head hsp
                    have : "access-list".toList = 'a' :: "ccess-list".toList := rfl
                    rw [this] at h2
                    simp at h2
                  · exact h2
              rcases hpre with rfl | hpre
              · simpa using col0
              · have := RuleLinesIndented.indented pre u r x.id x.extended x.mode _ hpre hu hh (by simpa using hrec)
                simpa using this
            · have hqt := quiet_remarks hr hE.sx
              rw [if_neg e] at hqt
              have := quiet_rules (r := u ++ '\n' :: r) hqt hn (by simpa using col0)
              simpa using this
      · cases h; exact stop rfl hE

/-- **C70.** When the parser accepts a configuration, its rules are the rule lines of the text, in order:
every line `access-list ID KIND ACTION ...` at the beginning of a line gives exactly one rule with this
name, kind and action, and every rule comes from such a line or from one
behind blanks. -/
theorem C70_rules_are_lines (g : Guard) (t : List Char) (items : List Item) (h : parseFile g t = .ok items []) :
    RuleLinesIndented t (headers items) := by
  unfold parseFile at h
  generalize hc : commands { env := { guard := g } } t = v at h
  cases v with
  | fail => cases h
  | raise e => cases h
  | ok x r =>
    obtain ⟨l, s'⟩ := x
    cases r with
    | cons c r => cases h
    | nil =>
      simp only at h
      split at h
      · cases h
      · cases h
        have := commands_lines (pre := []) rfl ⟨⟨by simp, by simp, by simp, by simp, by simp, by simp, by simp, by simp, by simp⟩, by simp⟩
          (by simp) (Or.inl rfl) hc
        simpa using this

theorem lines_unique {l l' t t' : List Char} (h : '\n' ∉ l) (h' : '\n' ∉ l') (e : l ++ '\n' :: t = l' ++ '\n' :: t') : l = l' ∧ t = t' := by
  obtain ⟨rfl, e2⟩ := split_unique (q := (· ≠ '\n')) (u := '\n' :: t) (v := '\n' :: t') (fun x hx he => h (he ▸ hx)) (fun x hx he => h' (he ▸ hx))
    (by intro x hx; rw [List.head?_cons] at hx; cases hx; simp) (by intro x hx; rw [List.head?_cons] at hx; cases hx; simp) e
  cases e2
  exact ⟨rfl, rfl⟩

theorem noNl_ne {l l' t : List Char} (h : '\n' ∉ l) (e : l = l' ++ '\n' :: t) : False := by
  rw [e] at h
  simp at h

theorem indented_notHeader {b l : List Char} (hb : b ≠ [] ∧ ∀ c ∈ b, c = ' ') (i k m : String) : ¬ Header (b ++ l) i k m :=
  ((SC.dead (t := []) hb).append l).notHeader i k m

theorem blank_noNl {b : List Char} (hb : ∀ c ∈ b, c = ' ') : '\n' ∉ b := fun hm => absurd (hb _ hm) (by decide)

/-- **C70 (nothing is lost).** No rule line at the beginning of a line is without its rule, and the rules keep
the order of the lines. -/
theorem C70_no_rule_lost (g : Guard) (t : List Char) (items : List Item) (lines : List (String × String × String))
    (h : parseFile g t = .ok items []) (hl : RuleLines t lines) : lines.Sublist (headers items) := by
  have hr := C70_rules_are_lines g t items h
  generalize headers items = hs at hr
  clear h
  induction hr generalizing lines with
  | last l hn hh =>
    cases hl with
    | last => exact List.Sublist.refl _
    | lastRule _ i k m _ h2 => exact absurd h2 (hh.notHeader i k m)
    | rule l' t' i k m hs h1 h2 h3 => simp at hn
    | other l' t' hs h1 h2 h3 => simp at hn
  | rule l t i k m hs hn hh _ ih =>
    generalize e : l ++ '\n' :: t = z at hl
    cases hl with
    | last => exact (noNl_ne ‹_› e.symm).elim
    | lastRule => exact (noNl_ne ‹_› e.symm).elim
    | rule l' t' i' k' m' hs' h1 h2 h3 =>
      obtain ⟨rfl, rfl⟩ := lines_unique hn h1 e
      obtain ⟨rfl, rfl, rfl⟩ := hh.unique h2
      exact (ih _ h3).cons_cons _
    | other l' t' hs' h1 h2 h3 =>
      obtain ⟨rfl, rfl⟩ := lines_unique hn h1 e
      exact absurd hh (h2 i k m)
  | indented b l t i k m hs hb hn hh _ ih =>
    generalize e : b ++ l ++ '\n' :: t = z at hl
    have hbl : '\n' ∉ b ++ l := by
      have := blank_noNl hb.2
      simp [this, hn]
    cases hl with
    | last => exact (noNl_ne ‹_› e.symm).elim
    | lastRule => exact (noNl_ne ‹_› e.symm).elim
    | rule l' t' i' k' m' hs' h1 h2 h3 =>
      obtain ⟨rfl, rfl⟩ := lines_unique hbl h1 e
      exact absurd h2 (indented_notHeader hb _ _ _)
    | other l' t' hs' h1 h2 h3 =>
      obtain ⟨rfl, rfl⟩ := lines_unique hbl h1 e
      exact (ih _ h3).cons _
  | other l t hs hn hh _ ih =>
    generalize e : l ++ '\n' :: t = z at hl
    cases hl with
    | last => exact (noNl_ne ‹_› e.symm).elim
    | lastRule => exact (noNl_ne ‹_› e.symm).elim
    | rule l' t' i' k' m' hs' h1 h2 h3 =>
      obtain ⟨rfl, rfl⟩ := lines_unique hn h1 e
      exact absurd h2 (hh.notHeader _ _ _)
    | other l' t' hs' h1 h2 h3 =>
      obtain ⟨rfl, rfl⟩ := lines_unique hn h1 e
      exact ih _ h3

/-- No line of the text is a rule line behind blanks. -/
def NoIndentedRule (t : List Char) : Prop :=
  ∀ a b l i k m, (t = b ++ l ∨ t = a ++ '\n' :: (b ++ l)) → b ≠ [] → (∀ c ∈ b, c = ' ') → ¬ Header l i k m

theorem NoIndentedRule.tail {l t : List Char} (h : NoIndentedRule (l ++ '\n' :: t)) : NoIndentedRule t := by
  intro a b x i k m ht hb hb' hh
  rcases ht with rfl | rfl
  · exact h l b x i k m (Or.inr rfl) hb hb' hh
  · exact h (l ++ '\n' :: a) b x i k m (Or.inr (by simp)) hb hb' hh

theorem Header.more {l : List Char} {i k m : String} (h : Header l i k m) (u : List Char) : Header (l ++ u) i k m := by
  obtain ⟨hi, hk, hm, hd, b, w, hs, hb, rfl⟩ := h
  exact ⟨hi, hk, hm, hd, b, w ++ u, hs, hb, by simp⟩

/-- **C70 (exactly).** If no rule line stands behind blanks, the rules are exactly the rule lines. -/
theorem C70_exactly (g : Guard) (t : List Char) (items : List Item) (h : parseFile g t = .ok items [])
    (hi : NoIndentedRule t) : RuleLines t (headers items) := by
  have hr := C70_rules_are_lines g t items h
  generalize headers items = hs at hr
  clear h
  induction hr with
  | last l hn hh => exact .last l hn hh.notHeader
  | rule l t i k m hs hn hh _ ih => exact .rule l t i k m hs hn hh (ih hi.tail)
  | indented b l t i k m hs hb hn hh _ ih =>
    exact absurd (hh.more ('\n' :: t)) (hi [] b _ i k m (Or.inl (by simp)) hb.1 hb.2)
  | other l t hs hn hh _ ih => exact .other l t hs hn hh.notHeader (ih hi.tail)

/-! ## a configuration -/

/-- A guard as documented. -/
def sampleGuard : Guard := fun _ r => match r with
  | c :: _ => !c.isAlphanum
  | [] => true

/-- A configuration with four access-list lines. -/
def sampleFile : List Char :=
  "names\naccess-list X remark web\naccess-list X extended permit ip any any log\naccess-list E ethertype permit bpdu\naccess-list Y standard deny host 10.0.0.9\n".toList

/-- The rules the parser finds. -/
def readHeaders (t : List Char) : Option (List (String × String × String)) :=
  match parseFile sampleGuard t with
  | .ok l [] => some (headers l)
  | _ => none

theorem readHeaders_spec {t : List Char} {hs : List (String × String × String)} (h : readHeaders t = some hs) :
    ∃ items, parseFile sampleGuard t = .ok items [] ∧ headers items = hs := by
  unfold readHeaders at h
  generalize parseFile sampleGuard t = v at h
  cases v with
  | fail => cases h
  | raise e => cases h
  | ok l r =>
    cases r with
    | nil => exact ⟨l, rfl, by simpa using h⟩
    | cons c r => cases h

theorem noIndentedRule_of {t : List Char} (h0 : t.head? ≠ some ' ')
    (h : ∀ n < t.length, ¬ (t[n]? = some '\n' ∧ t[n + 1]? = some ' ')) : NoIndentedRule t := by
  intro a b l i k m ht hb hb' _
  cases b with
  | nil => exact hb rfl
  | cons x b =>
    have hx := hb' x (by simp)
    subst hx
    rcases ht with rfl | rfl
    · exact h0 (by simp)
    · refine h a.length (by simp) ⟨by simp, ?_⟩
      rw [List.getElem?_append_right (by omega)]
      simp

/-- The hypotheses of C70 are met by a configuration with rules of two kinds, a remark and an ethertype
line. -/
theorem C70_sample : ∃ items, parseFile sampleGuard sampleFile = .ok items [] ∧
    headers items = [("X", "extended", "permit"), ("Y", "standard", "deny")] ∧ RuleLines sampleFile (headers items) := by
  obtain ⟨items, h1, h2⟩ := readHeaders_spec (t := sampleFile) (hs := [("X", "extended", "permit"), ("Y", "standard", "deny")])
    (by decide +kernel)
  exact ⟨items, h1, h2, C70_exactly _ _ _ h1 (noIndentedRule_of (by decide +kernel) (by decide +kernel))⟩

/-- **C70 (why blanks are excepted).** An unknown line of a port group is not skipped: the parser takes its
blank and reads the rest as a command, so that a rule line behind a blank
there becomes a rule. -/
theorem C70_indented_line_becomes_rule : ∃ items,
    parseFile sampleGuard "object-group service G tcp\n port-object eq 80\n access-list X extended permit ip any any\n".toList
      = .ok items [] ∧ headers items = [("X", "extended", "permit")] :=
  readHeaders_spec (by decide +kernel)

end Acltk.FwsmText
