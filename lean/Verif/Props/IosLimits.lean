import Verif.Props.IosFile
/-!
# C81, C84: numbers of lists and remarks at the end of a list
-/
namespace Acltk.IosText
open Acltk Acltk.Lookup Acltk.Peg Acltk.AclText
open Acltk.FwsmText (St Bare LineRest Skip NameGuard NoSp tok_self kw_no tatsuGuard_name joined_spaced joined)

variable {g : Guard} {rest : Text}

/-! ## where the commands stop -/

theorem file_stop {s s' : St} {t : List Char} {is : List Item} (h : File s t is s') (hs : Good s) {r : Text} (hr : NoSp r)
    (hf : command s' r = .fail) : ∃ is', SameItems is is' ∧ commands s (t ++ r) = .ok (is', s') r := by
  induction h with
  | nil s => exact ⟨[], .nil, by rw [List.nil_append, commands, hf]⟩
  | cmd s s' s'' t u is js hc hfile ih =>
    obtain ⟨js', j1, j2⟩ := ih (cmd_good hc hs) hf
    obtain ⟨is', i1, i2⟩ := cmd_read hc hs (file_start hfile hr)
    rw [List.append_assoc]
    exact ⟨is' ++ js', sameItems_append i1 j1, i2.commands j2⟩

/-- Commands followed by something that is no command and is not `line` or `end`: the text is refused. -/
theorem file_refused (hg : NameGuard g) {s : St} {t : List Char} {is : List Item} (h : File { env := { guard := g } } t is s)
    {r : Text} (hr : NoSp r) (hne : r ≠ []) (hl : oneOf g ["line", "end"] r = .fail) (hf : command s r = .fail) :
    parseFile g (t ++ r) = .fail := by
  obtain ⟨is', -, hc⟩ := file_stop h (good_new hg) hr hf
  unfold parseFile
  rw [hc]
  simp only
  split
  · rfl
  · rw [hl]
    cases r with
    | nil => exact absurd rfl hne
    | cons => rfl

/-- Behind remarks, neither a remark nor a rule. -/
theorem accessList_stop {e : Env} (hg : GuardOk e.guard) {rt : List Char} {rs : List (List Char)} (hr : NumRemarks rt rs) {u : Text}
    (h0 : numRemark e.guard u = .fail) (h1 : numExtended e u = .fail) (h2 : numStandard e u = .fail) :
    accessList e (rt ++ u) = .fail := by
  have none_ : ∀ {p : P IRule}, p u = .fail → (∀ i h b v, IdWord i → Spaced ["access-list", i, "remark"] h → b ≠ [] →
      Blanks b → p (h ++ (b ++ v)) = .fail) → remarked (numRemark e.guard) p (rt ++ u) = .fail := by
    intro p hp hrem
    unfold remarked
    cases hr with
    | nil => rw [List.nil_append, alt_fail (bind_fail (many1_fail h0)), hp]
    | cons i h b q t rs hi hs hb hbb hr hrb hrest =>
      have h1 := numRemark_read hg hi hs hb hbb hr hrb (t ++ u)
      have h2 := numRemarks_read hg hrest (u := u) h0
      simp only [List.append_assoc, List.cons_append] at h1 ⊢
      rw [alt_fail (by rw [bind_ok (many1_ok h1 h2)]; exact bind_fail hp)]
      exact hrem i h b _ hi hs hb hbb
  unfold accessList
  rw [alt_fail (none_ h1 (by
      intro i' h b u hi' hs' hb' hbb'
      have := numHead_remark hg hi' hs' hb' hbb' extendedId_digits u
      unfold numExtended
      rw [alt_fail (bind_fail this)]
      exact bind_fail this))]
  refine none_ h2 ?_
  intro i' h b u hi' hs' hb' hbb'
  exact bind_fail (numHead_remark hg hi' hs' hb' hbb' standardId_digits u)

/-- A text that begins with the word `access-list` and is no rule is no command. -/
theorem command_access {s : St} (hg : GuardOk s.env.guard) {u : Text} (hu : EndOfWord u)
    (h : accessList s.env ("access-list".toList ++ u) = .fail) : command s ("access-list".toList ++ u) = .fail := by
  have o : Only s.env.guard ("access-list".toList ++ u) "access-list" := only_key hg (by decide) hu
  have no : ∀ k ∈ keywords, k ≠ "access-list" → Skip s.env.guard ("access-list".toList ++ u) k := fun k hk hn => o.skips k hk hn
  unfold command
  rw [alts_fail (keep_fail (base_fail (version_no o.version))),
    alts_fail (keep_fail (base_fail (FwsmText.hostname_no (no _ (by decide) (by decide))))),
    alts_fail (keep_fail (base_fail (FwsmText.domainName_no (no _ (by decide) (by decide))))),
    alts_fail (interface_no (no _ (by decide) (by decide))),
    alts_fail (objectGroup_no (no _ (by decide) (by decide))),
    alts_fail (keep_fail (show ruleCommand _ _ = .fail from bind_fail h)),
    alts_fail (keep_fail (ip_no (no _ (by decide) (by decide)))),
    alts_fail (keep_fail (ipv6_no (no _ (by decide) (by decide))))]
  have ig : ignored s.env.guard ("access-list".toList ++ u) = .fail := by
    have n6 := (by decide +kernel : ∀ l ∈ [ignored1, ignored2, ignored3, ignored4], (l.all (fun kt => noTok "access-list" kt.1)) = true)
    unfold ignored
    rw [alts_fail (ignoredOf_noTok hg (n6 _ (by simp)) hu), alts_fail (banner_no hg (by decide +kernel) hu),
      alts_fail (ignoredOf_noTok hg (n6 _ (by simp)) hu), alts_fail (defineRange_no hg (by decide +kernel) hu),
      alts_fail (ignoredOf_noTok hg (n6 _ (by simp)) hu), alts_fail (usingLine_no hg (by decide +kernel) hu),
      alts_fail (ignoredOf_noTok hg (n6 _ (by simp)) hu), alts_fail (show nl _ = .fail from rfl)]
    rfl
  rw [alts_fail (keep_fail (show ignoredCommand _ _ = .fail from bind_fail ig))]
  rfl

theorem access_not_line (hg : GuardOk g) {u : Text} (hu : EndOfWord u) :
    oneOf g ["line", "end"] ("access-list".toList ++ u) = .fail :=
  oneOf_no hg hu (kwNoBlank (by decide +kernel)) (by decide +kernel)

/-! ## the numbers -/

/-- Character by character in the ranges. -/
def inRanges : List (Char × Char) → List Char → Bool
  | [], [] => true
  | r :: rs, c :: cs => decide (r.1 ≤ c) && decide (c ≤ r.2) && inRanges rs cs
  | _, _ => false

theorem digitsRe_shape : ∀ {rs : List (Char × Char)} {t x : Text}, x ∈ (digitsRe rs).run t → ∃ ds, t = ds ++ x ∧ inRanges rs ds = true
  | [], t, x, h => by
    simp [digitsRe, Re.run] at h; subst h; exact ⟨[], rfl, rfl⟩
  | r :: rs, t, x, h => by
    simp only [digitsRe, Re.run, List.mem_flatMap] at h
    obtain ⟨y, hy, hx⟩ := h
    cases t with
    | nil => simp [Re.rng, Re.run] at hy
    | cons c t =>
      obtain ⟨ds, e, hd⟩ := digitsRe_shape hx
      cases hc : (decide (r.1 ≤ c) && decide (c ≤ r.2)) with
      | false => rw [rng_no hc] at hy; cases hy
      | true =>
        rw [rng_run hc] at hy
        simp at hy
        subst hy
        exact ⟨c :: ds, by simp [e], by simp [inRanges, hc, hd]⟩

theorem pat_inv {re : Re} {t v r : Text} (h : pat re t = .ok v r) : r ∈ re.run t ∧ v = t.take (t.length - r.length) := by
  unfold pat at h
  split at h
  · cases h
  · rename_i e
    cases h
    exact ⟨by rw [e]; simp, rfl⟩

theorem pat_shape {re : Re} {t v r : Text} {Q : List Char → Prop} (h : pat re t = .ok v r)
    (hq : ∀ x, x ∈ re.run t → ∃ ds, t = ds ++ x ∧ Q ds) : Q v := by
  obtain ⟨h1, rfl⟩ := pat_inv h
  obtain ⟨ds, rfl, hd⟩ := hq r h1
  simpa using hd

theorem id_inv {re : Re} {t v r : Text} (h : (pat re >>= fun i => ahead ws >>= fun _ => pure i) t = .ok v r) :
    pat re t = .ok v r := by
  obtain ⟨a, u, h1, h2⟩ := bind_inv h
  obtain ⟨b, w, h3, h4⟩ := bind_inv h2
  cases h4
  rw [h1]
  unfold ahead at h3
  split at h3
  · cases h3; rfl
  · cases h3
  · cases h3

theorem inRanges_cons {r : Char × Char} {rs : List (Char × Char)} {l : List Char} (h : inRanges (r :: rs) l = true) :
    ∃ c cs, l = c :: cs ∧ r.1 ≤ c ∧ c ≤ r.2 ∧ inRanges rs cs = true := by
  cases l with
  | nil => cases h
  | cons c cs =>
    simp only [inRanges, Bool.and_eq_true, decide_eq_true_eq] at h
    exact ⟨c, cs, rfl, h.1.1, h.1.2, h.2⟩

theorem inRanges_nil {l : List Char} (h : inRanges [] l = true) : l = [] := by
  cases l with
  | nil => rfl
  | cons c cs => cases h

theorem isDig {c : Char} (h : '0' ≤ c) (h' : c ≤ '9') : c.isDigit = true := by
  show (decide ('0' ≤ c) && decide (c ≤ '9')) = true
  simp [h, h']

theorem extendedId_digits' {t v r : Text} (h : extendedId t = .ok v r) : extDigits v = true := by
  unfold extendedId at h
  rcases alt_inv h with h | h
  · have := pat_shape (id_inv h) (fun x hx => digitsRe_shape hx)
    obtain ⟨a, v, rfl, a1, a2, this⟩ := inRanges_cons this
    obtain ⟨b, v, rfl, b1, b2, this⟩ := inRanges_cons this
    obtain ⟨c, v, rfl, c1, c2, this⟩ := inRanges_cons this
    obtain rfl := inRanges_nil this
    obtain rfl : a = '1' := Char.le_antisymm a2 a1
    simp [extDigits, isDig b1 b2, isDig c1 c2]
  · have := pat_shape (id_inv h) (fun x hx => digitsRe_shape hx)
    obtain ⟨a, v, rfl, a1, a2, this⟩ := inRanges_cons this
    obtain ⟨b, v, rfl, b1, b2, this⟩ := inRanges_cons this
    obtain ⟨c, v, rfl, c1, c2, this⟩ := inRanges_cons this
    obtain ⟨d, v, rfl, d1, d2, this⟩ := inRanges_cons this
    obtain rfl := inRanges_nil this
    obtain rfl : a = '2' := Char.le_antisymm a2 a1
    simp only [extDigits, isDig c1 c2, isDig d1 d2, Bool.and_true, Bool.and_eq_true, decide_eq_true_eq]
    exact ⟨b1, b2⟩

theorem standardId_digits' {t v r : Text} (h : standardId t = .ok v r) : stdDigits v = true := by
  unfold standardId at h
  rcases alt_inv h with h | h
  · refine pat_shape (Q := fun v => stdDigits v = true) (id_inv h) ?_
    intro x hx
    simp only [Re.run, Re.optional, List.mem_flatMap, List.mem_append, List.mem_singleton] at hx
    obtain ⟨y, hy, hx⟩ := hx
    obtain ⟨ds, rfl, hds⟩ := digitsRe_shape (rs := [('1', '9')]) (t := t) (x := y) (by simpa [digitsRe, Re.run] using hy)
    obtain ⟨a, v, rfl, a1, a2, this⟩ := inRanges_cons hds
    obtain rfl := inRanges_nil this
    have ha : (decide ('1' ≤ a) && decide (a ≤ '9')) = true := by
      simp only [Bool.and_eq_true, decide_eq_true_eq]; exact ⟨a1, a2⟩
    rcases hx with hx | rfl
    · obtain ⟨ds', rfl, hds'⟩ := digitsRe_shape (rs := [('0', '9')]) (t := y) (x := x) (by simpa [digitsRe, Re.run] using hx)
      obtain ⟨b, v, rfl, b1, b2, this⟩ := inRanges_cons hds'
      obtain rfl := inRanges_nil this
      refine ⟨[a, b], rfl, ?_⟩
      simp only [stdDigits, ha, isDig b1 b2, Bool.true_and]
    · exact ⟨[a], rfl, ha⟩
  · have := pat_shape (id_inv h) (fun x hx => digitsRe_shape hx)
    obtain ⟨a, v, rfl, a1, a2, this⟩ := inRanges_cons this
    obtain ⟨b, v, rfl, b1, b2, this⟩ := inRanges_cons this
    obtain ⟨c, v, rfl, c1, c2, this⟩ := inRanges_cons this
    obtain ⟨d, v, rfl, d1, d2, this⟩ := inRanges_cons this
    obtain rfl := inRanges_nil this
    obtain rfl : a = '1' := Char.le_antisymm a2 a1
    obtain rfl : b = '3' := Char.le_antisymm b2 b1
    simp [stdDigits, isDig c1 c2, isDig d1 d2]

theorem digit_mem {c : Char} (h : c.isDigit = true) : c ∈ "0123456789".toList := by
  rcases digit_cases h with rfl | rfl | rfl | rfl | rfl | rfl | rfl | rfl | rfl | rfl <;> decide

/-- The number of a list of digits. -/
def num (l : List Char) : Nat := l.foldl (fun n c => 10 * n + (c.toNat - 48)) 0

theorem num_text : ("0123456789".toList.all (fun a => "0123456789".toList.all (fun b => "0123456789".toList.all (fun c =>
      (toString (num ['1', a, b])).toList == ['1', a, b] && decide (100 ≤ num ['1', a, b]) && decide (num ['1', a, b] ≤ 199) &&
      (!decide (a ≤ '6') || ((toString (num ['2', a, b, c])).toList == ['2', a, b, c] && decide (2000 ≤ num ['2', a, b, c]) &&
        decide (num ['2', a, b, c] ≤ 2699))) &&
      (toString (num ['1', '3', a, b])).toList == ['1', '3', a, b] && decide (1300 ≤ num ['1', '3', a, b]) &&
        decide (num ['1', '3', a, b] ≤ 1399) &&
      (!decide ('1' ≤ a) || ((toString (num [a])).toList == [a] && decide (1 ≤ num [a]) && decide (num [a] ≤ 99) &&
        ((toString (num [a, b])).toList == [a, b] && decide (1 ≤ num [a, b]) && decide (num [a, b] ≤ 99)))))))) = true := by
  decide +kernel

theorem rng_isDigit {a : Char} (h : '1' ≤ a ∧ a ≤ '9') : a.isDigit = true := by
  simp only [Char.isDigit, Bool.and_eq_true, decide_eq_true_eq]
  exact ⟨Char.le_trans (by decide) h.1, h.2⟩

theorem extNumber_of_digits {i : String} (h : extDigits i.toList = true) : ExtNumber i := by
  have key := num_text
  simp only [List.all_eq_true] at key
  have back : ∀ n : Nat, (toString n).toList = i.toList → i = toString n := fun n hn => (String.toList_inj.1 hn).symm
  generalize hl : i.toList = l at h
  unfold extDigits at h
  split at h
  · rename_i a b
    simp only [Bool.and_eq_true] at h
    have := key a (digit_mem h.1) b (digit_mem h.2) a (digit_mem h.1)
    simp only [Bool.and_eq_true, beq_iff_eq, decide_eq_true_eq] at this
    exact ⟨_, Or.inl ⟨this.1.1.1.1.1.1.2, this.1.1.1.1.1.2⟩, back _ (by rw [hl]; exact this.1.1.1.1.1.1.1)⟩
  · rename_i a b c
    simp only [Bool.and_eq_true, decide_eq_true_eq] at h
    have ha : a.isDigit = true := by
      simp only [Char.isDigit, Bool.and_eq_true, decide_eq_true_eq]
      exact ⟨h.1.1.1, Char.le_trans h.1.1.2 (by decide)⟩
    have := key a (digit_mem ha) b (digit_mem h.1.2) c (digit_mem h.2)
    simp only [Bool.and_eq_true, Bool.or_eq_true, beq_iff_eq, decide_eq_true_eq, Bool.not_eq_true', decide_eq_false_iff_not] at this
    rcases this.1.1.1.1.2 with h' | h'
    · exact absurd h.1.1.2 h'
    · exact ⟨_, Or.inr ⟨h'.1.2, h'.2⟩, back _ (by rw [hl]; exact h'.1.1)⟩
  · cases h

theorem stdNumber_of_digits {i : String} (h : stdDigits i.toList = true) : StdNumber i := by
  have key := num_text
  simp only [List.all_eq_true] at key
  have back : ∀ n : Nat, (toString n).toList = i.toList → i = toString n := fun n hn => (String.toList_inj.1 hn).symm
  generalize hl : i.toList = l at h
  unfold stdDigits at h
  split at h
  · rename_i a
    simp only [Bool.and_eq_true, decide_eq_true_eq] at h
    have ha := rng_isDigit h
    have := key a (digit_mem ha) a (digit_mem ha) a (digit_mem ha)
    simp only [Bool.and_eq_true, Bool.or_eq_true, beq_iff_eq, decide_eq_true_eq, Bool.not_eq_true', decide_eq_false_iff_not] at this
    rcases this.2 with h' | h'
    · exact absurd h.1 h'
    · exact ⟨_, Or.inl ⟨h'.1.1.2, h'.1.2⟩, back _ (by rw [hl]; exact h'.1.1.1)⟩
  · rename_i a b
    simp only [Bool.and_eq_true, decide_eq_true_eq] at h
    have ha := rng_isDigit h.1
    have := key a (digit_mem ha) b (digit_mem h.2) a (digit_mem ha)
    simp only [Bool.and_eq_true, Bool.or_eq_true, beq_iff_eq, decide_eq_true_eq, Bool.not_eq_true', decide_eq_false_iff_not] at this
    rcases this.2 with h' | h'
    · exact absurd h.1.1 h'
    · exact ⟨_, Or.inl ⟨h'.2.1.2, h'.2.2⟩, back _ (by rw [hl]; exact h'.2.1.1)⟩
  · rename_i a b
    simp only [Bool.and_eq_true] at h
    have := key a (digit_mem h.1) b (digit_mem h.2) a (digit_mem h.1)
    simp only [Bool.and_eq_true, Bool.or_eq_true, beq_iff_eq, decide_eq_true_eq] at this
    exact ⟨_, Or.inr ⟨this.1.1.2, this.1.2⟩, back _ (by rw [hl]; exact this.1.1.1.2)⟩
  · cases h

theorem digit_blank {v : List Char} (h : ∀ c ∈ v, c.isDigit = true) : ∀ c ∈ v, isBlank c = false := by
  intro c hc
  rcases digit_cases (h c hc) with rfl | rfl | rfl | rfl | rfl | rfl | rfl | rfl | rfl | rfl <;> decide

/-- The number is read up to the blank behind it. -/
theorem readsDigits_word {p : P (List Char)} (hp : ReadsDigits p) {i : String} (hi : IdWord i) {y : List Char} (hy : y ≠ []) (hyb : Blanks y)
    {u v r : Text} (h : p (i.toList ++ (y ++ u)) = .ok v r) : v = i.toList := by
  obtain ⟨h1, h2, u', h3⟩ := hp.2 _ _ _ h
  have hr : r ≠ [] := by rintro rfl; rw [ws_fail (by simp)] at h3; cases h3
  have hrh : ∀ c ∈ r.head?, isBlank c = true := by
    intro c hc
    cases r with
    | nil => exact absurd rfl hr
    | cons d r =>
      simp at hc; subst hc
      cases hd : isBlank d with
      | true => rfl
      | false =>
        rw [ws_fail (by
          intro a ha; simp at ha; subst ha
          constructor <;> (rintro rfl; revert hd; decide))] at h3
        cases h3
  exact (split_blank hi.word.noBlank (digit_blank h2) (blanks_head hy hyb _) hrh (by simp [hy]) hr h1).1.symm

theorem numHead_other (hg : GuardOk g) {ip : P (List Char)} (hip : ReadsDigits ip) {i : String} (hi : IdWord i)
    (hn : ∀ t r, ip t ≠ .ok i.toList r) {x y : List Char} (hx : x ≠ []) (hxb : Blanks x) (hy : y ≠ []) (hyb : Blanks y) (u : Text) :
    numHead g ip ("access-list".toList ++ (x ++ (i.toList ++ (y ++ u)))) = .fail := by
  unfold numHead
  rw [bind_ok (tok_self hg (by decide +kernel) (blanks_end hx hxb)), bind_ok (ws_ok hx hxb (word_head hi.word _))]
  cases hq : ip (i.toList ++ (y ++ u)) with
  | fail => exact bind_fail hq
  | raise e => exact absurd hq (hip.1 _ e)
  | ok v r =>
    have := readsDigits_word hip hi hy hyb hq
    subst this
    exact absurd hq (hn _ _)

/-- **C81.** The lists whose number is neither 1-99 or 1300-1399 nor 100-199 or 2000-2699 are refused, and with them the
whole configuration: behind any commands, and behind any remarks, a line `access-list i permit` or `access-list i deny`
with another number, and whatever follows. -/
theorem C81_other_numbers_refused (g : Guard) (hg : NameGuard g) (text : List Char) (items : List Item) (s : St)
    (h : File { env := { guard := g } } text items s) (rt : List Char) (rs : List (List Char)) (hr : NumRemarks rt rs)
    (i m : String) (hi : IdWord i) (h1 : ¬ StdNumber i) (h2 : ¬ ExtNumber i) (hm : m ∈ ["permit", "deny"])
    (hd : List Char) (hs : Spaced ["access-list", i, m] hd) (c : Char) (hc : c = ' ' ∨ c = '\t') (rest : List Char) :
    parseFile g (text ++ (rt ++ (hd ++ c :: rest))) = .fail := by
  have gd := file_good h (good_new hg)
  have ge : s.env.guard = g := by
    clear gd hr hs
    have : ∀ {s s' : St} {t : List Char} {is : List Item}, File s t is s' → s'.env.guard = s.env.guard := by
      intro s s' t is h
      induction h with
      | nil => rfl
      | cmd s s' s'' t u is js hc _ ih =>
        rw [ih]
        cases hc <;> rfl
    exact this h
  have hgo : GuardOk s.env.guard := gd.wf.guardOk
  obtain ⟨x, y, hx, hxb, hy, hyb, rfl⟩ := spaced_three hs
  simp only [List.append_assoc]
  have mw := mode_word hm
  have ec : EndOfWord (c :: rest) := ⟨rest, by rcases hc with rfl | rfl <;> simp⟩
  have noE : ∀ t r, extendedId t ≠ .ok i.toList r := fun t r hq => h2 (extNumber_of_digits (extendedId_digits' hq))
  have noS : ∀ t r, standardId t ≠ .ok i.toList r := fun t r hq => h1 (stdNumber_of_digits (standardId_digits' hq))
  have a1 : numExtended s.env ("access-list".toList ++ (x ++ (i.toList ++ (y ++ (m.toList ++ c :: rest))))) = .fail := by
    have := numHead_other hgo extendedId_digits hi noE hx hxb hy hyb (m.toList ++ c :: rest)
    unfold numExtended
    rw [alt_fail (bind_fail this)]
    exact bind_fail this
  have a2 : numStandard s.env ("access-list".toList ++ (x ++ (i.toList ++ (y ++ (m.toList ++ c :: rest))))) = .fail :=
    bind_fail (numHead_other hgo standardId_digits hi noS hx hxb hy hyb _)
  have a0 : numRemark s.env.guard ("access-list".toList ++ (x ++ (i.toList ++ (y ++ (m.toList ++ c :: rest))))) = .fail := by
    unfold numRemark
    rw [bind_ok (tok_self hgo (by decide +kernel) (blanks_end hx hxb)), bind_ok (ws_ok hx hxb (word_head hi.word _)),
      bind_ok (objName_read hi (blanks_end hy hyb)), bind_ok (ws_ok hy hyb (word_head mw _))]
    refine bind_fail (noTok_fail hgo ?_ ec)
    exact (by decide +kernel : ∀ m ∈ ["permit", "deny"], noTok m "remark" = true) m hm
  have ha := accessList_stop hgo hr a0 a1 a2
  obtain ⟨v, ev, he⟩ : ∃ v, rt ++ ("access-list".toList ++ (x ++ (i.toList ++ (y ++ (m.toList ++ c :: rest))))) = "access-list".toList ++ v ∧
      EndOfWord v := by
    cases hr with
    | nil => exact ⟨_, rfl, blanks_end hx hxb⟩
    | cons i' h' b' r' t' rs' hi' hs' hb' hbb' hr' hrb' hrest =>
      obtain ⟨x', y', hx', hxb', hy', hyb', rfl⟩ := spaced_three hs'
      simp only [List.append_assoc]
      exact ⟨_, rfl, blanks_end hx' hxb'⟩
  rw [ev] at ha ⊢
  refine file_refused hg h (noSp_word (FwsmText.kwWord (by decide)) _) (by simp) ?_ (command_access hgo he ha)
  exact access_not_line (ge ▸ hgo) he

/-- **C81** (partial: numbers 1-99 and 1300-1399 for standard lists, 100-199 and 2000-2699 for extended lists).  A rule of a
list with such a number, standing alone, is read and carries that number. -/
theorem C81_numbers_read_partial (g : Guard) (hg : NameGuard g) (i : String) (ws : List String) (r : IRule)
    (hb : StdNumber i ∧ StdBody { guard := g } ws r ∨ ExtNumber i ∧ ExtBody { guard := g } (HostWords { guard := g }) ws r)
    (l : List Char) (hl : Bare ("access-list" :: i :: ws) l) :
    ∃ r' u, SameRule { r with id := i } r' ∧ parseFile g l = .ok [.rule r'] u := by
  have hf : File { env := { guard := g } } (l ++ []) ([.rule { r with id := i }] ++ []) { env := { guard := g } } := by
    have hn : NumRule { guard := g } ("access-list" :: i :: ws) { r with id := i } := by
      rcases hb with ⟨hi, hb⟩ | ⟨hi, hb⟩
      · exact .standard i ws r hi hb
      · exact .extended i ws r hi hb
    have := Cmd.rule (s := { env := { guard := g } }) [] l [] _ _ .nil hn hl
    have er : ({ ({ r with id := i } : IRule) with remark := [] } : IRule) = { r with id := i } := by
      rcases hb with ⟨-, hb⟩ | ⟨-, hb⟩ <;> cases hb <;> rfl
    rw [er] at this
    exact .cmd _ _ _ _ _ _ _ this (.nil _)
  obtain ⟨is, u, h1, h2⟩ := C80_file_read_as_written g hg _ _ _ hf (by simp) [] .eof
  cases h1 with
  | cons _ j _ js hij hjs =>
    cases hjs
    cases hij with
    | rule _ r' h => exact ⟨r', u, h, by simpa using h2⟩
    | other => exact ⟨_, u, ⟨fun _ => rfl, rfl⟩, by simpa using h2⟩

/-- **C81** is violated by the code: every number from 1400 to 1999 is a standard list for the device, and every such list is
refused, as one line or with anything in front. -/
theorem C81_violated (n : Nat) (h1 : 1400 ≤ n) (h2 : n ≤ 1999) (g : Guard) (hg : NameGuard g) (rest : List Char) :
    parseFile g ("access-list ".toList ++ ((toString n).toList ++ " permit ".toList ++ rest)) = .fail := by
  have key : ((List.range 2000).all (fun n => decide (n < 1400) || (!extDigits (toString n).toList && !stdDigits (toString n).toList &&
      !(toString n).toList.isEmpty && (toString n).toList.all Char.isDigit))) = true := by decide +kernel
  have := List.all_eq_true.1 key n (List.mem_range.2 (by omega))
  have hn : ¬ n < 1400 := by omega
  simp only [hn, decide_false, Bool.false_or, Bool.and_eq_true, Bool.not_eq_true', List.all_eq_true] at this
  obtain ⟨⟨⟨k1, k2⟩, k3⟩, k4⟩ := this
  have := C81_other_numbers_refused g hg [] [] _ (.nil _) [] [] .nil (toString n) "permit"
    (digits_idWord (by intro e; rw [e] at k3; cases k3) k4)
    (by intro h; rw [stdNumber_digits h] at k2; cases k2) (by intro h; rw [extNumber_digits h] at k1; cases k1) (by decide)
    _ (.cons "access-list" [' '] _ _ (by simp) (by intro c hc; simp at hc; exact Or.inl hc)
      (.cons (toString n) [' '] _ _ (by simp) (by intro c hc; simp at hc; exact Or.inl hc) (.one "permit"))) ' ' (Or.inl rfl) rest
  simpa [List.append_assoc] using this

/-! ## remarks at the end of a list -/

/-- **C84** is violated by the code: a remark that is followed by no rule of a numbered list, because the list ends there, makes
the whole configuration refused, whatever is in front of it and whatever follows. -/
theorem C84_violated (g : Guard) (hg : NameGuard g) (text : List Char) (items : List Item) (s : St)
    (h : File { env := { guard := g } } text items s) (rt : List Char) (rs : List (List Char)) (hr : NumRemarks rt rs) (hne : rs ≠ [])
    (rest : List Char) (hn : ¬ "access-list".toList <+: rest) : parseFile g (text ++ (rt ++ rest)) = .fail := by
  have gd := file_good h (good_new hg)
  have hgo : GuardOk s.env.guard := gd.wf.guardOk
  have hg' : GuardOk g := (good_new hg).wf.guardOk
  have ht : ∀ g, tok g "access-list" rest = .fail := by
    intro g
    apply tok_prefix
    cases e : ("access-list".toList).isPrefixOf rest with
    | false => rfl
    | true => exact absurd (List.isPrefixOf_iff_prefix.1 e) hn
  have hh : ∀ ip : P (List Char), numHead s.env.guard ip rest = .fail := fun ip => bind_fail (ht _)
  have ha := accessList_stop hgo hr (u := rest) (bind_fail (ht _))
    (by unfold numExtended; rw [alt_fail (bind_fail (hh _))]; exact bind_fail (hh _)) (bind_fail (hh _))
  obtain ⟨u, ev, he⟩ := numRemarks_start hr hne
  rw [ev, List.append_assoc] at ha ⊢
  exact file_refused hg h (noSp_word (FwsmText.kwWord (by decide)) _) (by simp) (access_not_line hg' (he rest))
    (command_access hgo (he rest) ha)

/-- **C84** (partial: with a rule behind them).  Remarks in front of a rule of a numbered list are kept, as written and in their
order, with that rule — also if they belong to another list. -/
theorem C84_remarks_kept_partial (g : Guard) (hg : NameGuard g) (text : List Char) (items : List Item) (s : St)
    (h : File { env := { guard := g } } text items s) (rt l : List Char) (rs : List (List Char)) (hr : NumRemarks rt rs)
    (ws : List String) (r : IRule) (hw : NumRule s.env ws r) (hl : Bare ws l) :
    ∃ items' r' u, SameItems items items' ∧ SameRule { r with remark := rs } r' ∧ r'.remark = rs ∧
      parseFile g (text ++ (rt ++ l)) = .ok (items' ++ [.rule r']) u := by
  have hf : File { env := { guard := g } } (text ++ (rt ++ l)) (items ++ [.rule { r with remark := rs }]) s := by
    have h1 := Cmd.rule rt l rs ws r hr hw hl
    clear hw hl hr
    generalize hu : rt ++ l = t at h1
    generalize ({ env := { guard := g } } : St) = s0 at h
    clear hu
    induction h with
    | nil s => simpa using File.cmd _ _ _ _ _ _ _ h1 (.nil s)
    | cmd s s' s'' t u is js hc _ ih =>
      rw [List.append_assoc, List.append_assoc]
      exact .cmd _ _ _ _ _ _ _ hc (ih h1)
  obtain ⟨is, u, h1, h2⟩ := C80_file_read_as_written g hg _ _ _ hf (by simp) [] .eof
  have split : ∀ {a c : List Item} {i : Item}, SameItems (a ++ [i]) c → ∃ a' i', SameItems a a' ∧ Same i i' ∧ c = a' ++ [i'] := by
    intro a
    induction a with
    | nil =>
      intro c i h
      cases h with
      | cons _ j _ js hij hjs => cases hjs; exact ⟨[], j, .nil, hij, rfl⟩
    | cons x a ih =>
      intro c i h
      cases h with
      | cons _ j _ js hij hjs =>
        obtain ⟨a', i', h1, h2, rfl⟩ := ih hjs
        exact ⟨j :: a', i', .cons _ _ _ _ hij h1, h2, rfl⟩
  obtain ⟨a', i', h3, h4, rfl⟩ := split h1
  rw [List.append_nil] at h2
  cases h4 with
  | rule _ r' h => exact ⟨a', r', u, h3, h, by rw [show rs = ({ r with remark := rs } : IRule).remark from rfl, ← h.2], h2⟩
  | other => exact ⟨a', _, u, h3, ⟨fun _ => rfl, rfl⟩, rfl, h2⟩

/-- A concrete case: the list ends with a remark, and the configuration goes on. -/
theorem C84_violated_sample : parseFile tatsuGuard
    "access-list 10 permit any\naccess-list 10 remark the rest is denied\nhostname r1\n".toList = .fail := by
  have hb : Bare ["access-list", "10", "permit", "any"] (joined ["access-list", "10", "permit", "any"] ++ ['\n']) := FwsmText.joined_bare _ _
  have hf : File { env := { guard := tatsuGuard } } (([] ++ (joined ["access-list", "10", "permit", "any"] ++ ['\n'])) ++ []) ([_] ++ [])
      { env := { guard := tatsuGuard } } :=
    .cmd _ _ _ _ _ _ _ (.rule [] _ [] _ _ .nil (.standard "10" ["permit", "any"] _ ⟨10, by decide, by decide +kernel⟩
      (.mk "permit" ["any"] [] .any [] [] (by decide) .any .nil optionsAre_nil)) hb) (.nil _)
  have hr : NumRemarks (joined ["access-list", "10", "remark"] ++ ([' '] ++ ("the rest is denied".toList ++ '\n' :: []))) ["the rest is denied".toList] :=
    .cons "10" _ [' '] _ [] [] ⟨by decide, by decide⟩ (joined_spaced _ _) (by simp) (by intro c hc; simp at hc; exact Or.inl hc)
      (by decide) (by decide) .nil
  have := C84_violated tatsuGuard tatsuGuard_name _ _ _ hf _ _ hr (by simp) "hostname r1\n".toList (by decide)
  exact (by decide +kernel : "access-list 10 permit any\naccess-list 10 remark the rest is denied\nhostname r1\n".toList =
    (([] ++ (joined ["access-list", "10", "permit", "any"] ++ ['\n'])) ++ []) ++
    ((joined ["access-list", "10", "remark"] ++ ([' '] ++ ("the rest is denied".toList ++ '\n' :: []))) ++ "hostname r1\n".toList)) ▸ this

end Acltk.IosText
