import Verif.Lemmas.IosReadRule
/-!
# Reading numbered, named and IPv6 lists
-/
namespace Acltk.IosText
open Acltk Acltk.Lookup Acltk.Peg Acltk.AclText
open Acltk.FwsmText (St Bare LineRest Aft Sta ip4_read known_word kwWord tok_self refer_end sta_of_bare NoSp Members)

variable {rest : Text} {g : Guard}

/-- The same rule but for the order of the options. -/
theorem sameRule_mk {r : IRule} {d : Dict String (Option String)} (h : ∀ k, dGet d k = dGet r.options k) :
    SameRule r { r with options := d } := ⟨h, rfl⟩

theorem optionsAre_eq {d d' : Dict String (Option String)} {os : List (String × Option String)} (h : OptionsAre d os)
    (h' : OptionsAre d' os) : ∀ k, dGet d k = dGet d' k := fun k => by rw [h k, h' k]

/-! ## numbers of lists -/

/-- Which characters a number of an extended list has. -/
def extDigits (l : List Char) : Bool := match l with
  | ['1', a, b] => a.isDigit && b.isDigit
  | ['2', a, b, c] => ('0' ≤ a && a ≤ '6') && b.isDigit && c.isDigit
  | _ => false

/-- Which characters a number of a standard list has. -/
def stdDigits (l : List Char) : Bool := match l with
  | [a] => '1' ≤ a && a ≤ '9'
  | [a, b] => ('1' ≤ a && a ≤ '9') && b.isDigit
  | ['1', '3', a, b] => a.isDigit && b.isDigit
  | _ => false

theorem numbers_digits : ((List.range 2700).all (fun n =>
    (!(decide (100 ≤ n) && decide (n ≤ 199) || decide (2000 ≤ n)) || extDigits (toString n).toList) &&
    (!(decide (1 ≤ n) && decide (n ≤ 99) || decide (1300 ≤ n) && decide (n ≤ 1399)) || stdDigits (toString n).toList))) = true := by
  decide +kernel

theorem extNumber_digits {i : String} (h : ExtNumber i) : extDigits i.toList = true := by
  obtain ⟨n, hn, rfl⟩ := h
  have := List.all_eq_true.1 numbers_digits n (List.mem_range.2 (by omega))
  simp only [Bool.and_eq_true, Bool.or_eq_true, Bool.not_eq_true'] at this
  rcases this.1 with h | h
  · rw [Bool.or_eq_false_iff] at h
    simp at h; omega
  · exact h

theorem stdNumber_digits {i : String} (h : StdNumber i) : stdDigits i.toList = true := by
  obtain ⟨n, hn, rfl⟩ := h
  have := List.all_eq_true.1 numbers_digits n (List.mem_range.2 (by omega))
  simp only [Bool.and_eq_true, Bool.or_eq_true, Bool.not_eq_true'] at this
  rcases this.2 with h | h
  · rw [Bool.or_eq_false_iff] at h
    simp at h; omega
  · exact h

theorem digit_rng {c : Char} (h : c.isDigit = true) : (decide ('0' ≤ c) && decide (c ≤ '9')) = true := by
  rcases digit_cases h with rfl | rfl | rfl | rfl | rfl | rfl | rfl | rfl | rfl | rfl <;> decide

theorem rng_run {a b c : Char} {t : Text} (h : (decide (a ≤ c) && decide (c ≤ b)) = true) :
    (Re.rng a b).run (c :: t) = [t] := by
  simp [Re.rng, Re.run, h]

theorem rng_no {a b c : Char} {t : Text} (h : (decide (a ≤ c) && decide (c ≤ b)) = false) :
    (Re.rng a b).run (c :: t) = [] := by
  simp [Re.rng, Re.run, h]

theorem not_digit_rng {c : Char} (h : c.isDigit = false) : (decide ('0' ≤ c) && decide (c ≤ '9')) = false := by
  have : c.isDigit = (decide ('0' ≤ c) && decide (c ≤ '9')) := rfl
  rw [← this, h]

theorem extendedId_read {i : String} (h : extDigits i.toList = true) {t t' : Text} (ht : ws t = .ok () t') :
    extendedId (i.toList ++ t) = .ok i.toList t := by
  unfold extendedId
  generalize i.toList = l at h
  unfold extDigits at h
  split at h
  · rename_i a b
    simp only [Bool.and_eq_true] at h
    apply alt_ok
    have : (digitsRe [('1', '1'), ('0', '9'), ('0', '9')]).run (['1', a, b] ++ t) = [t] := by
      simp [digitsRe, Re.run, rng_run (a := '1') (b := '1') (c := '1') rfl, rng_run (digit_rng h.1), rng_run (digit_rng h.2)]
    rw [bind_ok (pat_of_run this), bind_ok (ahead_ok ht)]
    rfl
  · rename_i a b c
    simp only [Bool.and_eq_true] at h
    have h0 : (digitsRe [('1', '1'), ('0', '9'), ('0', '9')]).run (['2', a, b, c] ++ t) = [] := by
      simp [digitsRe, Re.run, rng_no (a := '1') (b := '1') (c := '2') rfl]
    rw [alt_fail (bind_fail (pat_fail h0))]
    have : (digitsRe [('2', '2'), ('0', '6'), ('0', '9'), ('0', '9')]).run (['2', a, b, c] ++ t) = [t] := by
      simp [digitsRe, Re.run, rng_run (a := '2') (b := '2') (c := '2') rfl,
        rng_run (a := '0') (b := '6') (c := a) (by simpa using h.1.1), rng_run (digit_rng h.1.2), rng_run (digit_rng h.2)]
    rw [bind_ok (pat_of_run this), bind_ok (ahead_ok ht)]
    rfl
  · cases h

theorem digit_not_ws {c : Char} (h : c.isDigit = true) (t : Text) : ws (c :: t) = .fail := by
  apply ws_fail
  intro d hd
  simp at hd; subst hd
  constructor <;> (rintro rfl; revert h; decide)

theorem not_one_rng {c : Char} (h : c ≠ '1') : (decide ('1' ≤ c) && decide (c ≤ '1')) = false := by
  rw [Bool.eq_false_iff]
  intro hc
  simp only [Bool.and_eq_true, decide_eq_true_eq] at hc
  exact h (Char.le_antisymm hc.2 hc.1)

theorem not_two_rng {c : Char} (h : c ≠ '2') : (decide ('2' ≤ c) && decide (c ≤ '2')) = false := by
  rw [Bool.eq_false_iff]
  intro hc
  simp only [Bool.and_eq_true, decide_eq_true_eq] at hc
  exact h (Char.le_antisymm hc.2 hc.1)

/-- The number of a standard list is not that of an extended list. -/
theorem extendedId_no {i : String} (h : stdDigits i.toList = true) {t : Text} {s : Char} (hs : s.isDigit = false) :
    extendedId (i.toList ++ s :: t) = .fail := by
  unfold extendedId
  have hs' := not_digit_rng hs
  have hs6 : (decide ('0' ≤ s) && decide (s ≤ '6')) = false := by
    rw [Bool.eq_false_iff]; intro hc
    rw [Bool.eq_false_iff] at hs'
    apply hs'
    simp only [Bool.and_eq_true, decide_eq_true_eq] at hc ⊢
    exact ⟨hc.1, Char.le_trans hc.2 (by decide)⟩
  generalize i.toList = l at h
  unfold stdDigits at h
  split at h
  · rename_i a
    have h1 : (digitsRe [('1', '1'), ('0', '9'), ('0', '9')]).run ([a] ++ s :: t) = [] := by
      by_cases ha : a = '1'
      · subst ha; simp [digitsRe, Re.run, rng_run (a := '1') (b := '1') (c := '1') rfl, rng_no hs']
      · simp [digitsRe, Re.run, rng_no (not_one_rng ha)]
    have h2 : (digitsRe [('2', '2'), ('0', '6'), ('0', '9'), ('0', '9')]).run ([a] ++ s :: t) = [] := by
      by_cases ha : a = '2'
      · subst ha; simp [digitsRe, Re.run, rng_run (a := '2') (b := '2') (c := '2') rfl, rng_no hs6]
      · simp [digitsRe, Re.run, rng_no (not_two_rng ha)]
    rw [alt_fail (bind_fail (pat_fail h1))]
    exact bind_fail (pat_fail h2)
  · rename_i a b
    simp only [Bool.and_eq_true] at h
    have h1 : (digitsRe [('1', '1'), ('0', '9'), ('0', '9')]).run ([a, b] ++ s :: t) = [] := by
      by_cases ha : a = '1'
      · subst ha
        simp [digitsRe, Re.run, rng_run (a := '1') (b := '1') (c := '1') rfl, rng_run (digit_rng h.2), rng_no hs']
      · simp [digitsRe, Re.run, rng_no (not_one_rng ha)]
    have h2 : (digitsRe [('2', '2'), ('0', '6'), ('0', '9'), ('0', '9')]).run ([a, b] ++ s :: t) = [] := by
      by_cases ha : a = '2'
      · subst ha
        cases hb : (decide ('0' ≤ b) && decide (b ≤ '6')) with
        | false => simp [digitsRe, Re.run, rng_run (a := '2') (b := '2') (c := '2') rfl, rng_no hb]
        | true => simp [digitsRe, Re.run, rng_run (a := '2') (b := '2') (c := '2') rfl, rng_run hb, rng_no hs']
      · simp [digitsRe, Re.run, rng_no (not_two_rng ha)]
    rw [alt_fail (bind_fail (pat_fail h1))]
    exact bind_fail (pat_fail h2)
  · rename_i a b
    simp only [Bool.and_eq_true] at h
    have h1 : (digitsRe [('1', '1'), ('0', '9'), ('0', '9')]).run (['1', '3', a] ++ (b :: s :: t)) = [b :: s :: t] := by
      simp [digitsRe, Re.run, rng_run (a := '1') (b := '1') (c := '1') rfl, rng_run (a := '0') (b := '9') (c := '3') rfl,
        rng_run (digit_rng h.1)]
    have h2 : (digitsRe [('2', '2'), ('0', '6'), ('0', '9'), ('0', '9')]).run (['1', '3', a, b] ++ s :: t) = [] := by
      simp [digitsRe, Re.run, rng_no (a := '2') (b := '2') (c := '1') rfl]
    rw [alt_fail (by
      rw [show ['1', '3', a, b] ++ s :: t = ['1', '3', a] ++ (b :: s :: t) from rfl, bind_ok (pat_of_run h1)]
      exact bind_fail (ahead_fail (digit_not_ws h.2 _)))]
    exact bind_fail (pat_fail h2)
  · cases h

theorem standardId_read {i : String} (h : stdDigits i.toList = true) {t t' : Text} {s : Char} (hs : s.isDigit = false)
    (ht : ws (s :: t) = .ok () t') : standardId (i.toList ++ s :: t) = .ok i.toList (s :: t) := by
  unfold standardId
  have hs' := not_digit_rng hs
  generalize i.toList = l at h
  unfold stdDigits at h
  split at h
  · rename_i a
    apply alt_ok
    have : (Re.seq (.rng '1' '9') (.optional (.rng '0' '9'))).run ([a] ++ s :: t) = [s :: t] := by
      simp [Re.optional, Re.run, rng_run (a := '1') (b := '9') (c := a) h, rng_no hs']
    rw [bind_ok (pat_of_run this), bind_ok (ahead_ok ht)]
    rfl
  · rename_i a b
    simp only [Bool.and_eq_true] at h
    apply alt_ok
    have : (Re.seq (.rng '1' '9') (.optional (.rng '0' '9'))).run ([a, b] ++ s :: t) = (s :: t) :: [b :: s :: t] := by
      simp [Re.optional, Re.run, rng_run (a := '1') (b := '9') (c := a) (by simpa using h.1), rng_run (digit_rng h.2)]
    rw [bind_ok (pat_of_run this), bind_ok (ahead_ok ht)]
    rfl
  · rename_i a b
    simp only [Bool.and_eq_true] at h
    have h1 : (Re.seq (.rng '1' '9') (.optional (.rng '0' '9'))).run (['1', '3'] ++ (a :: b :: s :: t)) =
        (a :: b :: s :: t) :: ['3' :: a :: b :: s :: t] := by
      simp [Re.optional, Re.run, rng_run (a := '1') (b := '9') (c := '1') rfl, rng_run (a := '0') (b := '9') (c := '3') rfl]
    rw [alt_fail (by
      rw [show ['1', '3', a, b] ++ s :: t = ['1', '3'] ++ (a :: b :: s :: t) from rfl, bind_ok (pat_of_run h1)]
      exact bind_fail (ahead_fail (digit_not_ws h.1 _)))]
    have : (digitsRe [('1', '1'), ('3', '3'), ('0', '9'), ('0', '9')]).run (['1', '3', a, b] ++ s :: t) = [s :: t] := by
      simp [digitsRe, Re.run, rng_run (a := '1') (b := '1') (c := '1') rfl, rng_run (a := '3') (b := '3') (c := '3') rfl,
        rng_run (digit_rng h.1), rng_run (digit_rng h.2)]
    rw [bind_ok (pat_of_run this), bind_ok (ahead_ok ht)]
    rfl
  · cases h

/-! ## numbered lists -/

theorem digits_idWord {i : String} (hne : i.toList ≠ []) (h : ∀ c ∈ i.toList, c.isDigit = true) : IdWord i :=
  ⟨hne, fun c hc => Or.inl (by simp [Char.isAlphanum, h c hc])⟩

theorem rng_digit {c : Char} (h : (decide ('0' ≤ c) && decide (c ≤ '9')) = true) : c.isDigit = true := h

theorem extDigits_all {l : List Char} (h : extDigits l = true) : l ≠ [] ∧ ∀ c ∈ l, c.isDigit = true := by
  unfold extDigits at h
  split at h
  · rename_i a b
    simp only [Bool.and_eq_true] at h
    refine ⟨by simp, ?_⟩
    intro c hc
    simp only [List.mem_cons, List.not_mem_nil, or_false] at hc
    rcases hc with rfl | rfl | rfl
    · rfl
    · exact h.1
    · exact h.2
  · rename_i a b c
    simp only [Bool.and_eq_true, decide_eq_true_eq] at h
    refine ⟨by simp, ?_⟩
    intro d hd
    simp only [List.mem_cons, List.not_mem_nil, or_false] at hd
    rcases hd with rfl | rfl | rfl | rfl
    · rfl
    · apply rng_digit
      simp only [Bool.and_eq_true, decide_eq_true_eq]
      exact ⟨h.1.1.1, Char.le_trans h.1.1.2 (by decide)⟩
    · exact h.1.2
    · exact h.2
  · cases h

theorem stdDigits_all {l : List Char} (h : stdDigits l = true) : l ≠ [] ∧ ∀ c ∈ l, c.isDigit = true := by
  have dig : ∀ {a : Char}, (decide ('1' ≤ a) && decide (a ≤ '9')) = true → a.isDigit = true := by
    intro a ha
    apply rng_digit
    simp only [Bool.and_eq_true, decide_eq_true_eq] at ha ⊢
    exact ⟨Char.le_trans (by decide) ha.1, ha.2⟩
  unfold stdDigits at h
  split at h
  · rename_i a
    refine ⟨by simp, ?_⟩
    intro c hc
    rw [List.mem_singleton.1 hc]; exact dig h
  · rename_i a b
    rw [Bool.and_eq_true] at h
    refine ⟨by simp, ?_⟩
    intro c hc
    simp only [List.mem_cons, List.not_mem_nil, or_false] at hc
    rcases hc with rfl | rfl
    · exact dig h.1
    · exact h.2
  · rename_i a b
    simp only [Bool.and_eq_true] at h
    refine ⟨by simp, ?_⟩
    intro d hd
    simp only [List.mem_cons, List.not_mem_nil, or_false] at hd
    rcases hd with rfl | rfl | rfl | rfl
    · rfl
    · rfl
    · exact h.1
    · exact h.2
  · cases h

theorem extNumber_idWord {i : String} (h : ExtNumber i) : IdWord i :=
  digits_idWord (extDigits_all (extNumber_digits h)).1 (extDigits_all (extNumber_digits h)).2

theorem stdNumber_idWord {i : String} (h : StdNumber i) : IdWord i :=
  digits_idWord (stdDigits_all (stdNumber_digits h)).1 (stdDigits_all (stdNumber_digits h)).2

/-- The beginning of a rule of a numbered list. -/
theorem numHead_read (hg : GuardOk g) {ip : P (List Char)} {i m w : String} {wl : List String} (hi : IdWord i)
    (hm : m ∈ ["permit", "deny"]) (hw : Word w)
    (hip : ∀ s t t', s.isDigit = false → ws (s :: t) = .ok () t' → ip (i.toList ++ s :: t) = .ok i.toList (s :: t)) {t : Text}
    (hs : Sta false rest ("access-list" :: i :: m :: w :: wl) t) :
    ∃ t', numHead g ip t = .ok (i, m) t' ∧ Sta false rest (w :: wl) t' := by
  obtain ⟨t1, rfl, h1⟩ := hs
  obtain ⟨t2, h2, t3, rfl, h3⟩ := h1.blanks hi.word
  obtain ⟨t4, h4, t5, rfl, h5⟩ := h3.blanks (mode_word hm)
  obtain ⟨t6, h6, h7⟩ := h5.blanks hw
  refine ⟨t6, ?_, h7⟩
  obtain ⟨s, u, rfl, hsd⟩ := endOfWord_not_digit h3.eow
  unfold numHead
  rw [bind_ok (tok_self hg (by decide +kernel) h1.eow), bind_ok h2, bind_ok (hip _ _ _ hsd h4), bind_ok h4,
    bind_ok (mode_read hg hm h5.eow), bind_ok h6, String.ofList_toList]
  rfl

/-- The number is not one of this kind. -/
theorem numHead_no (hg : GuardOk g) {ip : P (List Char)} {i : String} {wl : List String} (hi : IdWord i)
    (hip : ∀ s t, s.isDigit = false → ip (i.toList ++ s :: t) = .fail) {t : Text}
    (hs : Sta false rest ("access-list" :: i :: wl) t) : numHead g ip t = .fail := by
  obtain ⟨t1, rfl, h1⟩ := hs
  obtain ⟨t2, h2, t3, rfl, h3⟩ := h1.blanks hi.word
  obtain ⟨s, u, rfl, hsd⟩ := endOfWord_not_digit h3.eow
  unfold numHead
  rw [bind_ok (tok_self hg (by decide +kernel) h1.eow), bind_ok h2]
  exact bind_fail (hip _ _ hsd)

theorem ext_digit : ((extForms.flags ++ extForms.values ++ extForms.logs).all
    (fun k => !(k.toList.head?.map Char.isDigit).getD true)) = true := by decide +kernel
theorem ext_ports : ∀ k ∈ extForms.flags ++ extForms.values ++ extForms.logs,
    k ∉ ["gt", "lt", "eq", "neq", "range", "object-group"] := by decide +kernel
theorem std_digit : ((stdForms.flags ++ stdForms.values ++ stdForms.logs).all
    (fun k => !(k.toList.head?.map Char.isDigit).getD true)) = true := by decide +kernel

theorem protoFirst {e : Env} (he : e.WF) {pw : List String} {p : Proto} (hp : ProtoWords e pw p) :
    ∃ w l, pw = w :: l ∧ Word w := by
  obtain ⟨pne, pwd⟩ := hp.words he
  cases pw with
  | nil => exact absurd rfl pne
  | cons a l => exact ⟨a, l, rfl, pwd a (by simp)⟩

theorem extBody_first {e : Env} {H : List String → Host → Prop} {wl : List String} {r : IRule} (h : ExtBody e H wl r) :
    ∃ m l, wl = m :: l ∧ m ∈ ["permit", "deny"] := by
  cases h with
  | general m _ _ _ _ _ _ _ _ _ hm => exact ⟨m, _, rfl, hm⟩
  | icmp m _ _ _ _ _ _ _ _ _ _ hm => exact ⟨m, _, rfl, hm⟩

theorem stdBody_first {e : Env} {wl : List String} {r : IRule} (h : StdBody e wl r) :
    ∃ m l, wl = m :: l ∧ m ∈ ["permit", "deny"] := by
  cases h with
  | mk m _ _ _ _ _ hm => exact ⟨m, _, rfl, hm⟩

theorem numExtended_read {e : Env} (he : e.WF) {i : String} (hi : ExtNumber i) {wl : List String} {r : IRule}
    (h : ExtBody e (HostWords e) wl r) {t : Text} (hs : Sta false rest ("access-list" :: i :: wl) t) :
    ∃ d, (∀ k, dGet d k = dGet r.options k) ∧ numExtended e t = .ok { r with id := i, options := d } rest := by
  have hg := he.guardOk
  have hip : ∀ s t t', s.isDigit = false → ws (s :: t) = .ok () t' → extendedId (i.toList ++ s :: t) = .ok i.toList (s :: t) :=
    fun s t t' _ ht => extendedId_read (extNumber_digits hi) ht
  cases h with
  | general m pw sw dw ow p s d o os hm hp hn1 hn2 hsw hdw ha hj how ho =>
    obtain ⟨pf, pl, rfl, hpf⟩ := protoFirst he hp
    obtain ⟨t1, h1, h2⟩ := numHead_read hg (extNumber_idWord hi) hm hpf hip hs
    obtain ⟨o', h3, h4⟩ := general_read he (reads_acl he) ext_fits ext_digit ext_ports hp hsw hdw ha hj how h2
    refine ⟨o', optionsAre_eq h3 ho, ?_⟩
    unfold numExtended
    rw [alt_fail (by
      refine (bind_ok h1).trans ?_
      exact notIcmp he hp hn1 hn2 h2 _)]
    refine (bind_ok h1).trans ?_
    exact h4 (fun p s d o => pure ({ id := i, mode := m, protocol := p, src := s, dst := d, options := o } : IRule))
  | icmp m p sw dw cw ow s d c o os hm hp hsw hdw hj hcw how ho =>
    have hpf : Word p := mem_word (l := ["icmp", "icmp6"]) (by decide +kernel) hp
    obtain ⟨t1, h1, h2⟩ := numHead_read hg (extNumber_idWord hi) hm hpf hip hs
    obtain ⟨o', h3, h4⟩ := icmpRule_read he (reads_acl he) hp hsw hdw hj hcw how h2
    refine ⟨o', optionsAre_eq h3 ho, ?_⟩
    unfold numExtended
    apply alt_ok
    refine (bind_ok h1).trans ?_
    exact h4 (fun p s d c o => pure (IRule.mk i none m (.name p) ⟨s, none⟩ ⟨d, none⟩ [] o c))

/-- Host, options and the end of the line. -/
theorem standard_read {e : Env} (he : e.WF) {sw ow : List String} {s : Host} {os : List (String × Option String)}
    (hsw : HostW e sw s) (how : OptW stdForms ow os) {t : Text} (hs : Sta false rest (sw ++ ow) t) :
    ∃ o, OptionsAre o os ∧ ∀ {β : Type} (k : Host → Dict String (Option String) → P β),
      (iosHost e >>= fun s => optionsOf e.guard stdOptions >>= fun o => nl >>= fun _ => k s o) t = k s o rest := by
  obtain ⟨t1, h1, h2⟩ := iosHost_read he hsw (how.words std_fits.words).1
    (fun _ _ _ _ _ => opts_noAddr std_fits.words std_digit how) hs
  obtain ⟨t2, o, h3, h4, h5⟩ := optionsOf_read he.guardOk std_fits how h2
  refine ⟨o, h5, fun k => ?_⟩
  rw [bind_ok h1, bind_ok h3, bind_ok h4]

theorem hostFirst {e : Env} (he : e.WF) {hw : List String} {h : Host} (hh : HostW e hw h) : ∃ w l, hw = w :: l ∧ Word w := by
  obtain ⟨pne, pwd⟩ := hh.words he
  cases hw with
  | nil => exact absurd rfl pne
  | cons a l => exact ⟨a, l, rfl, pwd a (by simp)⟩

theorem numStandard_read {e : Env} (he : e.WF) {i : String} (hi : StdNumber i) {wl : List String} {r : IRule}
    (h : StdBody e wl r) {t : Text} (hs : Sta false rest ("access-list" :: i :: wl) t) :
    numExtended e t = .fail ∧
    ∃ d, (∀ k, dGet d k = dGet r.options k) ∧ numStandard e t = .ok { r with id := i, options := d } rest := by
  have hg := he.guardOk
  have hno := numHead_no hg (ip := extendedId) (stdNumber_idWord hi)
    (fun s t hs => extendedId_no (stdNumber_digits hi) hs) hs
  refine ⟨?_, ?_⟩
  · unfold numExtended
    rw [alt_fail (bind_fail hno)]
    exact bind_fail hno
  cases h with
  | mk m sw ow s o os hm hsw how ho =>
    obtain ⟨sf, sl, rfl, hsf⟩ := hostFirst he hsw
    obtain ⟨t1, h1, h2⟩ := numHead_read hg (stdNumber_idWord hi) hm hsf
      (fun s t t' hs ht => standardId_read (stdNumber_digits hi) hs ht) hs
    obtain ⟨o', h3, h4⟩ := standard_read he hsw how h2
    refine ⟨o', optionsAre_eq h3 ho, ?_⟩
    unfold numStandard
    refine (bind_ok h1).trans ?_
    exact h4 (fun s o => pure (IRule.mk i none m (.name "ip") ⟨s, none⟩ ⟨.any, none⟩ [] o none))

/-! ## remarks of numbered lists -/

/-- A rule is no remark. -/
theorem numRemark_no (hg : GuardOk g) {i w : String} {wl : List String} (hi : IdWord i) (hw : Word w) (hn : w ≠ "remark")
    {t : Text} (hs : Sta false rest ("access-list" :: i :: w :: wl) t) : numRemark g t = .fail := by
  obtain ⟨t1, rfl, h1⟩ := hs
  obtain ⟨t2, h2, t3, rfl, h3⟩ := h1.blanks hi.word
  obtain ⟨t4, h4, h5⟩ := h3.blanks hw
  unfold numRemark
  rw [bind_ok (tok_self hg (by decide +kernel) h1.eow), bind_ok h2, bind_ok (objName_read hi h3.eow), bind_ok h4]
  exact FwsmText.kw_no hg h5 hw (by decide +kernel) hn _

/-- The head of a remark in front of anything. -/
theorem spaced_three {a b c : String} {h : List Char} (hs : Spaced [a, b, c] h) :
    ∃ x y, x ≠ [] ∧ Blanks x ∧ y ≠ [] ∧ Blanks y ∧ h = a.toList ++ (x ++ (b.toList ++ (y ++ c.toList))) := by
  cases hs with
  | cons w x ws t h1 h2 h3 =>
    cases h3 with
    | cons w' y ws' t' h4 h5 h6 =>
      cases h6 with
      | one w'' => exact ⟨x, y, h1, h2, h4, h5, rfl⟩
      | cons _ _ _ _ _ _ h7 => cases h7

theorem numRemark_read (hg : GuardOk g) {i : String} {h b r : List Char} (hi : IdWord i)
    (hs : Spaced ["access-list", i, "remark"] h) (hb : b ≠ []) (hbb : Blanks b) (hr : '\n' ∉ r)
    (hrb : ∀ c ∈ r.head?, c ≠ ' ' ∧ c ≠ '\t') (u : Text) :
    numRemark g (h ++ (b ++ (r ++ '\n' :: u))) = .ok r u := by
  obtain ⟨x, y, hx, hxb, hy, hyb, rfl⟩ := spaced_three hs
  have hw : Word "remark" := word_of_decide (by decide +kernel)
  unfold numRemark
  simp only [List.append_assoc]
  have hh : ∀ c ∈ (r ++ '\n' :: u).head?, c ≠ ' ' ∧ c ≠ '\t' := by
    intro c hc
    cases r with
    | nil => simp at hc; subst hc; decide
    | cons d r => simp at hc; subst hc; exact hrb _ (by simp)
  rw [bind_ok (tok_self hg (by decide +kernel) (blanks_end hx hxb)), bind_ok (ws_ok hx hxb (word_head hi.word _)),
    bind_ok (objName_read hi (blanks_end hy hyb)), bind_ok (ws_ok hy hyb (word_head hw _)),
    bind_ok (tok_self hg (by decide +kernel) (blanks_end hb hbb)), bind_ok (ws_ok hb hbb hh),
    bind_ok (FwsmText.toeol_read hr u), bind_ok (FwsmText.nl_lf u)]
  rfl

/-- `p` reads digits up to a blank. -/
def ReadsDigits (p : P (List Char)) : Prop :=
  (∀ t e, p t ≠ .raise e) ∧ ∀ t v r, p t = .ok v r → t = v ++ r ∧ (∀ c ∈ v, c.isDigit = true) ∧ ∃ u, ws r = .ok () u

theorem digitsRe_takes : ∀ {rs : List (Char × Char)}, (∀ r ∈ rs, '0' ≤ r.1 ∧ r.2 ≤ '9') → ∀ {t x : Text},
    x ∈ (digitsRe rs).run t → ∃ ds, t = ds ++ x ∧ ∀ c ∈ ds, c.isDigit = true
  | [], _, t, x, h => by
    simp [digitsRe, Re.run] at h; subst h; exact ⟨[], rfl, by simp⟩
  | r :: rs, hr, t, x, h => by
    simp only [digitsRe, Re.run, List.mem_flatMap] at h
    obtain ⟨y, hy, hx⟩ := h
    cases t with
    | nil => simp [Re.rng, Re.run] at hy
    | cons c t =>
      by_cases hc : (decide (r.1 ≤ c) && decide (c ≤ r.2)) = true
      · rw [rng_run hc] at hy
        rw [List.mem_singleton.1 hy] at hx
        obtain ⟨ds, rfl, hds⟩ := digitsRe_takes (fun q hq => hr q (by simp [hq])) hx
        refine ⟨c :: ds, rfl, ?_⟩
        intro d hd
        rcases List.mem_cons.1 hd with rfl | hd
        · simp only [Bool.and_eq_true, decide_eq_true_eq] at hc
          have := hr r (by simp)
          apply rng_digit
          simp only [Bool.and_eq_true, decide_eq_true_eq]
          exact ⟨Char.le_trans this.1 hc.1, Char.le_trans hc.2 this.2⟩
        · exact hds d hd
      · rw [rng_no (by simpa using hc)] at hy
        simp at hy

theorem readsDigits_pat {re : Re} (h : ∀ t x, x ∈ re.run t → ∃ ds, t = ds ++ x ∧ ∀ c ∈ ds, c.isDigit = true) :
    ReadsDigits (pat re >>= fun i => ahead ws >>= fun _ => pure i) := by
  have key : ∀ t, (∃ v r u, pat re t = .ok v r ∧ t = v ++ r ∧ (∀ c ∈ v, c.isDigit = true) ∧ ws r = .ok () u) ∨
      (pat re >>= fun i => ahead ws >>= fun _ => pure i) t = .fail := by
    intro t
    cases hq : pat re t with
    | fail => exact Or.inr (bind_fail hq)
    | raise e => exact absurd hq (FwsmText.pat_noRaise _ _ _)
    | ok v r =>
      cases hw : ws r with
      | fail => right; rw [bind_ok hq]; exact bind_fail (ahead_fail hw)
      | raise e => exact absurd hw (FwsmText.ws_noRaise _ _)
      | ok x u =>
        left
        unfold pat at hq
        cases hrun : re.run t with
        | nil => rw [hrun] at hq; cases hq
        | cons y l =>
          rw [hrun] at hq
          obtain ⟨ds, rfl, hds⟩ := h t y (by rw [hrun]; simp)
          simp at hq
          obtain ⟨rfl, rfl⟩ := hq
          exact ⟨_, _, u, rfl, rfl, hds, hw⟩
  constructor
  · intro t e he
    rcases key t with ⟨v, r, u, h1, h2, h3, h4⟩ | h
    · rw [bind_ok h1, bind_ok (ahead_ok h4)] at he; cases he
    · rw [h] at he; cases he
  · intro t v r he
    rcases key t with ⟨v', r', u, h1, h2, h3, h4⟩ | h
    · rw [bind_ok h1, bind_ok (ahead_ok h4)] at he; cases he; exact ⟨h2, h3, u, h4⟩
    · rw [h] at he; cases he

theorem ReadsDigits.alt {p q : P (List Char)} (hp : ReadsDigits p) (hq : ReadsDigits q) : ReadsDigits (Peg.alt p q) := by
  constructor
  · intro t e he
    cases h : p t with
    | fail => rw [alt_fail h] at he; exact hq.1 t e he
    | raise e' => exact hp.1 t e' h
    | ok v r => rw [alt_ok h] at he; cases he
  · intro t v r he
    cases h : p t with
    | fail => rw [alt_fail h] at he; exact hq.2 t v r he
    | raise e' => exact absurd h (hp.1 t e')
    | ok v' r' => rw [alt_ok h] at he; cases he; exact hp.2 t v r h

theorem extendedId_digits : ReadsDigits extendedId :=
  ReadsDigits.alt (readsDigits_pat (fun _ _ h => digitsRe_takes (by decide) h))
    (readsDigits_pat (fun _ _ h => digitsRe_takes (by decide) h))

theorem standardId_digits : ReadsDigits standardId := by
  refine ReadsDigits.alt (readsDigits_pat ?_) (readsDigits_pat (fun _ _ h => digitsRe_takes (by decide) h))
  intro t x h
  simp only [Re.run, Re.optional, List.mem_flatMap, List.mem_append, List.mem_singleton] at h
  obtain ⟨y, hy, hx⟩ := h
  obtain ⟨ds, rfl, hds⟩ : ∃ ds, t = ds ++ y ∧ ∀ c ∈ ds, c.isDigit = true :=
    digitsRe_takes (rs := [('1', '9')]) (by decide) (by simpa [digitsRe, Re.run] using hy)
  rcases hx with hx | rfl
  · obtain ⟨ds', rfl, hds'⟩ : ∃ ds, y = ds ++ x ∧ ∀ c ∈ ds, c.isDigit = true :=
      digitsRe_takes (rs := [('0', '9')]) (by decide) (by simpa [digitsRe, Re.run] using hx)
    refine ⟨ds ++ ds', by simp, ?_⟩
    intro c hc
    rcases List.mem_append.1 hc with hc | hc
    · exact hds c hc
    · exact hds' c hc
  · exact ⟨ds, rfl, hds⟩

/-- Two ways to split a text in front of its first blank. -/
theorem split_blank {a v : List Char} {y r : Text} (ha : ∀ c ∈ a, isBlank c = false) (hv : ∀ c ∈ v, isBlank c = false)
    (hy : ∀ c ∈ y.head?, isBlank c = true) (hr : ∀ c ∈ r.head?, isBlank c = true) (hyn : y ≠ []) (hrn : r ≠ [])
    (h : a ++ y = v ++ r) : a = v ∧ y = r := by
  induction a generalizing v with
  | nil =>
    cases v with
    | nil => exact ⟨rfl, h⟩
    | cons d v =>
      cases y with
      | nil => exact absurd rfl hyn
      | cons c y =>
        simp at h
        have h1 := hy c (by simp)
        have h2 := hv d (by simp)
        rw [h.1, h2] at h1; cases h1
  | cons c a ih =>
    cases v with
    | nil =>
      cases r with
      | nil => exact absurd rfl hrn
      | cons d r =>
        simp at h
        have h1 := hr d (by simp)
        have h2 := ha c (by simp)
        rw [← h.1, h2] at h1; cases h1
    | cons d v =>
      simp at h
      obtain ⟨rfl, h⟩ := h
      obtain ⟨rfl, h'⟩ := ih (fun x hx => ha x (by simp [hx])) (fun x hx => hv x (by simp [hx])) h
      exact ⟨rfl, h'⟩

theorem blanks_head {b : List Char} (hne : b ≠ []) (hb : Blanks b) (u : Text) : ∀ c ∈ (b ++ u).head?, isBlank c = true := by
  cases b with
  | nil => exact absurd rfl hne
  | cons d b =>
    intro c hc
    simp at hc; subst hc
    rcases hb d (by simp) with rfl | rfl <;> decide

/-- No rule begins with a remark. -/
theorem numHead_remark (hg : GuardOk g) {i : String} {h b : List Char} (hi : IdWord i)
    (hs : Spaced ["access-list", i, "remark"] h) (hb : b ≠ []) (hbb : Blanks b) {ip : P (List Char)}
    (hip : ReadsDigits ip) (u : Text) : numHead g ip (h ++ (b ++ u)) = .fail := by
  obtain ⟨x, y, hx, hxb, hy, hyb, rfl⟩ := spaced_three hs
  have hw : Word "remark" := word_of_decide (by decide +kernel)
  unfold numHead
  simp only [List.append_assoc]
  rw [bind_ok (tok_self hg (by decide +kernel) (blanks_end hx hxb)), bind_ok (ws_ok hx hxb (word_head hi.word _))]
  cases hq : ip (i.toList ++ (y ++ ("remark".toList ++ (b ++ u)))) with
  | fail => exact bind_fail hq
  | raise e => exact absurd hq (hip.1 _ e)
  | ok v r =>
    rw [bind_ok hq]
    obtain ⟨h1, h2, u', h3⟩ := hip.2 _ _ _ hq
    have hr : r ≠ [] := by rintro rfl; rw [ws_fail (by simp)] at h3; cases h3
    have hrh : ∀ c ∈ r.head?, isBlank c = true := by
      intro c hc
      cases r with
      | nil => exact absurd rfl hr
      | cons d r =>
        simp at hc; subst hc
        cases hd : isBlank d with
        | true => rfl
        | false =>
          rw [ws_fail (by
            intro a ha; simp at ha; subst ha
            constructor <;> (rintro rfl; revert hd; decide))] at h3
          cases h3
    obtain ⟨-, rfl⟩ := split_blank hi.word.noBlank (fun c hc => by
      rcases digit_cases (h2 c hc) with rfl | rfl | rfl | rfl | rfl | rfl | rfl | rfl | rfl | rfl <;> decide)
      (blanks_head hy hyb _) hrh (by simp [hy]) hr h1
    rw [bind_ok (ws_ok hy hyb (word_head hw _))]
    unfold mode
    exact bind_fail (oneOf_no hg (blanks_end hb hbb) (kwNoBlank (by decide +kernel)) (by decide +kernel))

/-- The remarks in front of a text that begins with no remark. -/
theorem numRemarks_read (hg : GuardOk g) {t : List Char} {rs : List (List Char)} (h : NumRemarks t rs) {u : Text}
    (hu : numRemark g u = .fail) : many (numRemark g) (t ++ u) = .ok rs u := by
  induction h with
  | nil => exact many_fail hu
  | cons i h b r t rs hi hs hb hbb hr hrb _ ih =>
    have := numRemark_read hg hi hs hb hbb hr hrb (t ++ u)
    simp only [List.append_assoc, List.cons_append] at this ⊢
    refine many_ok this ?_ ih
    simp only [List.length_append, List.length_cons]; omega

/-- A rule of a numbered list with its remarks. -/
theorem accessList_read {e : Env} (he : e.WF) {rt l : List Char} {rs : List (List Char)} {wl : List String} {r : IRule}
    (hr : NumRemarks rt rs) (h : NumRule e wl r) (hl : Bare wl l) (rest : Text) :
    ∃ d, (∀ k, dGet d k = dGet r.options k) ∧
      accessList e (rt ++ (l ++ rest)) = .ok { r with options := d, remark := rs } rest := by
  have hg := he.guardOk
  have hsta := sta_of_bare (rest := rest) hl
  -- remarks or none in front of a rule that `p` reads
  have some_ : ∀ {p : P IRule} {r' : IRule}, p (l ++ rest) = .ok r' rest → r'.remark = [] → numRemark e.guard (l ++ rest) = .fail →
      remarked (numRemark e.guard) p (rt ++ (l ++ rest)) = .ok { r' with remark := rs } rest := by
    intro p r' hp hrem hno
    unfold remarked
    cases hr with
    | nil =>
      rw [List.nil_append, alt_fail (bind_fail (many1_fail hno)), hp]
      cases r'; simp at hrem; subst hrem; rfl
    | cons i h b q t rs hi hs hb hbb hr hrb hrest =>
      apply alt_ok
      have h1 := numRemark_read hg hi hs hb hbb hr hrb (t ++ (l ++ rest))
      have h2 := numRemarks_read hg hrest (u := l ++ rest) hno
      simp only [List.append_assoc, List.cons_append] at h1 ⊢
      rw [bind_ok (many1_ok h1 h2), bind_ok hp]
      rfl
  -- remarks or none in front of a rule that `p` does not read
  have none_ : ∀ {p : P IRule}, p (l ++ rest) = .fail → (∀ i h b u, IdWord i → Spaced ["access-list", i, "remark"] h → b ≠ [] →
      Blanks b → p (h ++ (b ++ u)) = .fail) → numRemark e.guard (l ++ rest) = .fail →
      remarked (numRemark e.guard) p (rt ++ (l ++ rest)) = .fail := by
    intro p hp hrem hno
    unfold remarked
    cases hr with
    | nil => rw [List.nil_append, alt_fail (bind_fail (many1_fail hno)), hp]
    | cons i h b q t rs hi hs hb hbb hr hrb hrest =>
      have h1 := numRemark_read hg hi hs hb hbb hr hrb (t ++ (l ++ rest))
      have h2 := numRemarks_read hg hrest (u := l ++ rest) hno
      simp only [List.append_assoc, List.cons_append] at h1 ⊢
      rw [alt_fail (by rw [bind_ok (many1_ok h1 h2)]; exact bind_fail hp)]
      exact hrem i h b _ hi hs hb hbb
  have norem : ∀ {i m : String} {l' : List String}, wl = "access-list" :: i :: m :: l' → IdWord i → m ∈ ["permit", "deny"] →
      numRemark e.guard (l ++ rest) = .fail := by
    rintro i m l' rfl hi hm
    refine numRemark_no hg hi (mode_word hm) ?_ hsta
    rintro rfl; revert hm; decide
  unfold accessList
  cases h with
  | extended i wl r hi hb =>
    obtain ⟨m, l', rfl, hm⟩ := extBody_first hb
    obtain ⟨d, h1, h2⟩ := numExtended_read he hi hb hsta
    refine ⟨d, h1, ?_⟩
    apply alt_ok
    refine some_ h2 ?_ (norem rfl (extNumber_idWord hi) hm)
    cases hb <;> rfl
  | standard i wl r hi hb =>
    obtain ⟨m, l', rfl, hm⟩ := stdBody_first hb
    obtain ⟨h0, d, h1, h2⟩ := numStandard_read he hi hb hsta
    refine ⟨d, h1, ?_⟩
    rw [alt_fail (none_ h0 (by
      intro i' h b u hi' hs' hb' hbb'
      have := numHead_remark hg hi' hs' hb' hbb' extendedId_digits u
      unfold numExtended
      rw [alt_fail (bind_fail this)]
      exact bind_fail this) (norem rfl (stdNumber_idWord hi) hm))]
    refine some_ h2 ?_ (norem rfl (stdNumber_idWord hi) hm)
    cases hb <;> rfl

end Acltk.IosText
