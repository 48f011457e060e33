import Verif.Lemmas.AclRule
/-!
# C66, C67: access-list lines are read as written
-/
namespace Acltk.AclText
open Acltk Acltk.Lookup Acltk.Peg

theorem standard_read {e : Env} (he : e.WF) {wl : List String} {r : PRule} (h : StandardWords e wl r) {rest t : Text}
    (hs : Starts rest wl t) : ruleStandard e t = .ok r rest := by
  have hg := he.guardOk
  have hx : Word "standard" := word_of_decide (by decide +kernel)
  cases h with
  | mk i m sw h hi hm hsw =>
    obtain ⟨sne, swd⟩ := hsw.words he
    obtain ⟨sf, sl, rfl⟩ : ∃ a l, sw = a :: l := by
      cases sw with
      | nil => exact absurd rfl sne
      | cons a l => exact ⟨a, l, rfl⟩
    obtain ⟨t1, h1, h2⟩ := start_read hg hi hx hm (swd sf (by simp)) hs (fun i x m => do
      let s ← aclHost e
      let _ ← opt ws
      nl
      pure ({ id := i, extended := x, mode := m, protocol := .name "ip", src := ⟨s, none⟩, dst := ⟨.any, none⟩ } : PRule))
    obtain ⟨t2, h3, h4⟩ := host_read he hsw (more := []) (t := t1) (by simpa using h2)
    exact h1.trans ((bind_ok h3).trans (After.finish h4 _))

theorem stringP_read {w : String} (h : UrlWord w) {t : Text} (ht : EndOfWord t) : stringP (w.toList ++ t) = .ok w.toList t := by
  apply pat_plus h.1
  · intro c hc; simp [h.2 c hc]
  · obtain ⟨u, rfl | rfl | rfl | rfl⟩ := ht <;> (intro c hc; simp at hc; subst hc; decide)

theorem UrlWord.word {w : String} (h : UrlWord w) : Word w := by
  refine ⟨h.1, ?_⟩
  intro c hc hb
  have := h.2 c hc
  simp only [List.mem_cons, List.not_mem_nil, or_false] at hb
  rcases hb with rfl | rfl | rfl | rfl <;> revert this <;> decide

theorem webtype_read {e : Env} (he : e.WF) {wl : List String} {r : PRule} (h : WebtypeWords e wl r) {rest t : Text}
    (hs : Starts rest wl t) : ∃ d, (∀ k, dGet d k = dGet r.options k) ∧
      ruleWebtype e t = .ok { r with options := d } rest := by
  have hg := he.guardOk
  have hx : Word "webtype" := word_of_decide (by decide +kernel)
  cases h with
  | url i m u ow r os hi hm hu how e1 e2 e3 e4 e5 e6 e7 e8 e9 e10 =>
    obtain ⟨owd, oh⟩ := how.words he
    have hk : Word "url" := word_of_decide (by decide +kernel)
    obtain ⟨t1, h1, t2, rfl, h2⟩ := start_read hg hi hx hm hk hs (fun i x m => do
      let p ← tok e.guard "url"
      ws
      let u ← alt stringP (do let s ← tok e.guard "any"; pure s.toList)
      let o ← lineEnd e
      pure ({ id := i, extended := x, mode := m, protocol := .name p, src := ⟨.any, none⟩, dst := ⟨.any, none⟩,
              options := o, url := some u } : PRule))
    have h2 : After rest (u :: ow) t2 := h2
    obtain ⟨t3, h3, t4, rfl, h4⟩ := h2.blanks hu.word
    obtain ⟨d, h5, h6⟩ := lineEnd_read he how h4
    refine ⟨d, fun k => by rw [h6 k, e8 k], ?_⟩
    refine alt_ok (h1.trans ?_)
    refine (bind_ok ((tok_word (noBlank_of_decide (by decide +kernel)) h2.endOfWord hg.passes).1 rfl)).trans ?_
    rw [bind_ok h3, bind_ok (alt_ok (stringP_read hu h4.endOfWord)), bind_ok h5]
    cases r; simp_all; rfl
  | tcp i m dw ow r os hi hm hdw how e1 e2 e3 e4 e5 e6 e7 e8 e9 =>
    obtain ⟨owd, oh⟩ := how.words he
    obtain ⟨dne, dwd⟩ := hdw.words he
    have hk : Word "tcp" := word_of_decide (by decide +kernel)
    obtain ⟨df, dl, rfl⟩ : ∃ a l, dw = a :: l := by
      cases dw with
      | nil => exact absurd rfl dne
      | cons a l => exact ⟨a, l, rfl⟩
    obtain ⟨t0, h0, t0', rfl, h0'⟩ := start_read hg hi hx hm hk hs (fun i x m => do
      let p ← tok e.guard "url"
      ws
      let u ← alt stringP (do let s ← tok e.guard "any"; pure s.toList)
      let o ← lineEnd e
      pure ({ id := i, extended := x, mode := m, protocol := .name p, src := ⟨.any, none⟩, dst := ⟨.any, none⟩,
              options := o, url := some u } : PRule))
    obtain ⟨t1, h1, t2, rfl, h2⟩ := start_read hg hi hx hm hk hs (fun i x m => do
      let p ← tok e.guard "tcp"
      ws
      let d ← node e
      let o ← lineEnd e
      pure ({ id := i, extended := x, mode := m, protocol := .name p, src := ⟨.any, none⟩, dst := d, options := o } : PRule))
    have h2 : After rest (df :: dl ++ ow) t2 := h2
    obtain ⟨t3, h3, h4⟩ := After.blanks h2 (dwd df (by simp))
    obtain ⟨t4, h7, h8⟩ := node_read he hdw owd (fun _ => noPort_options oh) (t := t3) h4
    obtain ⟨d, h9, h10⟩ := lineEnd_read he how h8
    refine ⟨d, fun k => by rw [h10 k, e7 k], ?_⟩
    refine (alt_fail (h0.trans ?_)).trans (h1.trans ?_)
    · exact kw_other hg (noBlank_of_decide (by decide +kernel)) hk.noBlank h0'.endOfWord (by decide)
    refine (bind_ok ((tok_word (noBlank_of_decide (by decide +kernel)) h2.endOfWord hg.passes).1 rfl)).trans ?_
    rw [bind_ok h3, bind_ok h7, bind_ok h9]
    cases r; simp_all; rfl

/-! ## the alternatives of `access_list` -/

/-- The word behind the list name decides which alternative reads the line. -/
theorem other_kind {e : Env} (he : e.WF) {i k : String} (hi : IdWord i) (hk : Word k) {rest : Text} {more : List String}
    {t : Text} (hs : Starts rest ("access-list" :: i :: k :: more) t) :
    (mayMatch k "extended" = false → ruleExtended e t = .fail) ∧
    (mayMatch k "standard" = false → ruleStandard e t = .fail) ∧
    (mayMatch k "webtype" = false → ruleWebtype e t = .fail) ∧
    (mayMatch k "remark" = false → remarkLine e t = .fail) := by
  have hg := he.guardOk
  refine ⟨fun h => ?_, fun h => ?_, fun h => ?_, fun h => ?_⟩
  · unfold ruleExtended
    rw [alt_fail (kind_fail hg hi hk (word_of_decide (by decide +kernel)) h hs _)]
    exact kind_fail hg hi hk (word_of_decide (by decide +kernel)) h hs _
  · exact kind_fail hg hi hk (word_of_decide (by decide +kernel)) h hs _
  · unfold ruleWebtype
    rw [alt_fail (kind_fail hg hi hk (word_of_decide (by decide +kernel)) h hs _)]
    exact kind_fail hg hi hk (word_of_decide (by decide +kernel)) h hs _
  · exact kind_fail hg hi hk (word_of_decide (by decide +kernel)) h hs _

/-- A line without remarks. -/
theorem remarked_fail {e : Env} {t : Text} (h : remarkLine e t = .fail) (p : P (Option PRule)) : remarked e p t = .fail :=
  bind_fail (many1_fail h)

theorem StandardWords.shape {e : Env} {wl : List String} {r : PRule} (h : StandardWords e wl r) :
    ∃ i more, wl = "access-list" :: i :: "standard" :: more ∧ IdWord i := by
  cases h with
  | mk i m sw h hi => exact ⟨i, _, rfl, hi⟩

theorem WebtypeWords.shape {e : Env} {wl : List String} {r : PRule} (h : WebtypeWords e wl r) :
    ∃ i more, wl = "access-list" :: i :: "webtype" :: more ∧ IdWord i := by
  cases h with
  | url i m u ow r os hi => exact ⟨i, _, rfl, hi⟩
  | tcp i m dw ow r os hi => exact ⟨i, _, rfl, hi⟩

/-- What the three kinds of rules share: the rule parser that reads the line, and the others fail. -/
theorem rule_read {e : Env} (he : e.WF) {wl : List String} {r : PRule} (h : RuleWords e wl r) {rest t : Text}
    (hs : Starts rest wl t) : remarkLine e t = .fail ∧ ∃ d, (∀ k, dGet d k = dGet r.options k) ∧
      (ruleExtended e t = .ok { r with options := d } rest ∨
       (ruleExtended e t = .fail ∧ (ruleStandard e t = .ok { r with options := d } rest ∨
        (ruleStandard e t = .fail ∧ ruleWebtype e t = .ok { r with options := d } rest)))) := by
  rcases h with h | h | h
  · obtain ⟨i, more, rfl, hi⟩ := h.shape
    have hk := other_kind he hi (word_of_decide (by decide +kernel)) hs
    obtain ⟨d, h1, h2⟩ := extended_read he h hs
    exact ⟨hk.2.2.2 (by decide +kernel), d, h1, Or.inl h2⟩
  · obtain ⟨i, more, rfl, hi⟩ := h.shape
    have hk := other_kind he hi (word_of_decide (by decide +kernel)) hs
    have h2 := standard_read he h hs
    exact ⟨hk.2.2.2 (by decide +kernel), r.options, fun k => rfl,
      Or.inr ⟨hk.1 (by decide +kernel), Or.inl h2⟩⟩
  · obtain ⟨i, more, rfl, hi⟩ := h.shape
    have hk := other_kind he hi (word_of_decide (by decide +kernel)) hs
    obtain ⟨d, h1, h2⟩ := webtype_read he h hs
    exact ⟨hk.2.2.2 (by decide +kernel), d, h1,
      Or.inr ⟨hk.1 (by decide +kernel), Or.inr ⟨hk.2.1 (by decide +kernel), h2⟩⟩⟩

/-- **C66.** Every line made of the words of an access-list rule, with any number of blanks and tabs
between the words and at the end, is read as exactly that rule: list name, kind, action, protocol,
source and destination with their ports, ICMP type and code, and for each kind of option the last one
written.  Nothing of the text behind the line is consumed. -/
theorem C66_line_read_as_written (e : Env) (he : e.WF) (ws : List String) (r : PRule) (h : RuleWords e ws r)
    (text : List Char) (hl : Line ws text) (rest : List Char) :
    ∃ d, (∀ k, dGet d k = dGet r.options k) ∧
      accessList e (text ++ rest) = .ok (some { r with options := d }) rest := by
  have hs := starts_of_line hl rest
  obtain ⟨hr, d, h1, h2⟩ := rule_read he h hs
  refine ⟨d, h1, ?_⟩
  unfold accessList
  rw [alts_fail (remarked_fail hr _)]
  rcases h2 with h2 | ⟨f1, h2 | ⟨f2, h2⟩⟩
  · exact alts_ok (by rw [bind_ok h2]; rfl)
  · rw [alts_fail (bind_fail f1), alts_fail (remarked_fail hr _)]
    exact alts_ok (by rw [bind_ok h2]; rfl)
  · rw [alts_fail (bind_fail f1), alts_fail (remarked_fail hr _), alts_fail (bind_fail f2),
      alts_fail (remarked_fail hr _)]
    exact alts_ok (by rw [bind_ok h2]; rfl)

/-! ## remarks -/

theorem remark_read {e : Env} (he : e.WF) {i : String} (hi : IdWord i) {h r t : List Char}
    (hs : Spaced ["access-list", i, "remark"] h) (hr : '\n' ∉ r) :
    remarkLine e (h ++ (' ' :: (r ++ '\n' :: t))) = .ok r t := by
  have hg := he.guardOk
  cases hs with
  | cons w b1 ws t1 h1 hb1 hs =>
    cases hs with
    | cons w b2 ws t2 h2 hb2 hs =>
      cases hs with
      | one =>
        unfold remarkLine
        have e1 : "access-list".toList ++ (b1 ++ (i.toList ++ (b2 ++ "remark".toList))) ++ (' ' :: (r ++ '\n' :: t)) =
            "access-list".toList ++ (b1 ++ (i.toList ++ (b2 ++ ("remark".toList ++ (' ' :: (r ++ '\n' :: t)))))) := by
          simp only [List.append_assoc]
        rw [e1, bind_ok (head_text hg hi h1 hb1 h2 hb2 (word_head (word_of_decide (by decide +kernel)) _)),
          bind_ok ((tok_word (noBlank_of_decide (by decide +kernel)) (t := ' ' :: (r ++ '\n' :: t))
            ⟨_, Or.inl rfl⟩ hg.passes).1 rfl)]
        have s1 : sp (' ' :: (r ++ '\n' :: t)) = .ok () (r ++ '\n' :: t) := rfl
        have s2 : toeol (r ++ '\n' :: t) = .ok r ('\n' :: t) := by
          apply pat_star
          · intro c hc
            simp only [bne_iff_ne]
            rintro rfl; exact hr hc
          · intro c hc; simp at hc; subst hc; decide
        have s3 : nl ('\n' :: t) = .ok () t := rfl
        rw [bind_ok s1, bind_ok s2, bind_ok s3]
        rfl
      | cons w b ws t h hb hs => cases hs

theorem remarks_read {e : Env} (he : e.WF) {text : List Char} {rs : List (List Char)} (h : RemarkLines text rs) {t : Text}
    (ht : remarkLine e t = .fail) : many (remarkLine e) (text ++ t) = .ok rs t := by
  induction h with
  | nil => exact many_fail ht
  | cons i h r t' rs hi hs hr _ ih =>
    have := remark_read he hi hs (t := t' ++ t) hr
    have e1 : h ++ ' ' :: (r ++ '\n' :: t') ++ t = h ++ (' ' :: (r ++ '\n' :: (t' ++ t))) := by simp
    rw [e1]
    exact many_ok this (by simp; omega) ih

/-- A remark line is no rule. -/
theorem remark_no_rule {e : Env} (he : e.WF) {text : List Char} {rs : List (List Char)} (h : RemarkLines text rs)
    (hne : rs ≠ []) (t : Text) : ruleExtended e (text ++ t) = .fail ∧ ruleStandard e (text ++ t) = .fail ∧
      ruleWebtype e (text ++ t) = .fail := by
  have hg := he.guardOk
  cases h with
  | nil => exact absurd rfl hne
  | cons i h r t' rs hi hs hr _ =>
    cases hs with
    | cons w b1 ws t1 h1 hb1 hs =>
      cases hs with
      | cons w b2 ws t2 h2 hb2 hs =>
        cases hs with
        | one =>
          have e1 : "access-list".toList ++ (b1 ++ (i.toList ++ (b2 ++ "remark".toList))) ++ (' ' :: (r ++ '\n' :: t')) ++ t =
              "access-list".toList ++ (b1 ++ (i.toList ++ (b2 ++ ("remark".toList ++ (' ' :: (r ++ '\n' :: t') ++ t))))) := by
            simp only [List.append_assoc]
          have hh := head_text hg hi h1 hb1 h2 hb2
            (word_head (w := "remark") (word_of_decide (by decide +kernel)) (' ' :: (r ++ '\n' :: t') ++ t))
          have key : ∀ {β : Type} (k : String) (f : String → String → P β), (k.toList.all (fun c => !isBlank c)) = true →
              mayMatch "remark" k = false →
              (head e.guard >>= fun i => tok e.guard k >>= f i) ("access-list".toList ++ (b1 ++ (i.toList ++ (b2 ++
                ("remark".toList ++ (' ' :: (r ++ '\n' :: t') ++ t)))))) = .fail := by
            intro β k f hk hm
            rw [bind_ok hh]
            exact bind_fail (tok_no hg (noBlank_of_decide hk) ⟨_, Or.inl rfl⟩ hm)
          rw [e1]
          refine ⟨?_, ?_, ?_⟩
          · unfold ruleExtended
            rw [alt_fail (key _ _ (by decide +kernel) (by decide +kernel))]
            exact key _ _ (by decide +kernel) (by decide +kernel)
          · exact key _ _ (by decide +kernel) (by decide +kernel)
          · unfold ruleWebtype
            rw [alt_fail (key _ _ (by decide +kernel) (by decide +kernel))]
            exact key _ _ (by decide +kernel) (by decide +kernel)
        | cons w b ws t h hb hs => cases hs

/-- **C67.** The remark lines in front of a rule are attached to it, in their order and with their text
unchanged up to the line feed; the rule itself is read as without them. -/
theorem C67_remarks_attached (e : Env) (he : e.WF) (ws : List String) (r : PRule) (h : RuleWords e ws r)
    (text : List Char) (hl : Line ws text) (remarks : List Char) (rs : List (List Char)) (hr : RemarkLines remarks rs)
    (hne : rs ≠ []) (rest : List Char) :
    ∃ d, (∀ k, dGet d k = dGet r.options k) ∧
      accessList e (remarks ++ (text ++ rest)) = .ok (some { r with options := d, remark := rs }) rest := by
  have hs := starts_of_line hl rest
  obtain ⟨hrem, d, h1, h2⟩ := rule_read he h hs
  refine ⟨d, h1, ?_⟩
  obtain ⟨n1, n2, n3⟩ := remark_no_rule he hr hne (text ++ rest)
  have hm : many1 (remarkLine e) (remarks ++ (text ++ rest)) = .ok rs (text ++ rest) := by
    have := remarks_read he hr hrem
    cases hr with
    | nil => exact absurd rfl hne
    | cons i h r' t' rs' hi hs' hr' hrest =>
      have e1 : h ++ ' ' :: (r' ++ '\n' :: t') ++ (text ++ rest) = h ++ (' ' :: (r' ++ '\n' :: (t' ++ (text ++ rest)))) := by simp
      rw [e1]
      exact many1_ok (remark_read he hi hs' hr') (remarks_read he hrest hrem)
  have rk : ∀ (p : P PRule) , p (text ++ rest) = .ok { r with options := d } rest →
      remarked e (do let r ← p; pure (some r)) (remarks ++ (text ++ rest)) =
        .ok (some { r with options := d, remark := rs }) rest := by
    intro p hp
    unfold remarked
    rw [bind_ok hm, bind_ok (a := some { r with options := d }) (r := rest) (by rw [bind_ok hp]; rfl)]
    rfl
  have rf : ∀ (p : P PRule) , p (text ++ rest) = .fail →
      remarked e (do let r ← p; pure (some r)) (remarks ++ (text ++ rest)) = .fail := by
    intro p hp
    unfold remarked
    rw [bind_ok hm]
    exact bind_fail (bind_fail hp)
  unfold accessList
  rcases h2 with h2 | ⟨f1, h2 | ⟨f2, h2⟩⟩
  · exact alts_ok (rk _ h2)
  · rw [alts_fail (rf _ f1), alts_fail (bind_fail n1)]
    exact alts_ok (rk _ h2)
  · rw [alts_fail (rf _ f1), alts_fail (bind_fail n1), alts_fail (rf _ f2), alts_fail (bind_fail n2)]
    exact alts_ok (rk _ h2)

/-- **C67 (violated for the list name).** The name of the list in a remark line is not compared with the
rule that follows: a remark of any list `i` is attached to the rule, whatever list it belongs to. -/
theorem C67_violated_other_list (e : Env) (he : e.WF) (ws : List String) (r : PRule) (h : RuleWords e ws r)
    (text : List Char) (hl : Line ws text) (i : String) (hi : IdWord i) (_hother : i ≠ r.id)
    (remark : List Char) (hn : '\n' ∉ remark) (rest : List Char) :
    ∃ r', accessList e ("access-list ".toList ++ (i.toList ++ (" remark ".toList ++ (remark ++ '\n' :: (text ++ rest))))) =
      .ok (some r') rest ∧ r'.id = r.id ∧ r'.remark = [remark] := by
  have hsp : Spaced ["access-list", i, "remark"] ("access-list".toList ++ ([' '] ++ (i.toList ++ ([' '] ++ "remark".toList)))) :=
    .cons _ [' '] _ _ (by simp) (by intro c hc; simp at hc; exact Or.inl hc)
      (.cons _ [' '] _ _ (by simp) (by intro c hc; simp at hc; exact Or.inl hc) (.one _))
  obtain ⟨d, -, h2⟩ := C67_remarks_attached e he ws r h text hl _ [remark]
    (.cons i _ remark [] [] hi hsp hn .nil) (by simp) rest
  refine ⟨{ r with options := d, remark := [remark] }, ?_, rfl, rfl⟩
  rw [← h2]
  congr 1
  have e1 : "access-list ".toList = "access-list".toList ++ [' '] := by decide
  have e2 : " remark ".toList = [' '] ++ ("remark".toList ++ [' ']) := by decide
  rw [e1, e2]
  simp only [List.append_assoc, List.cons_append, List.nil_append]

/-! ## a concrete configuration -/

/-- TatSu's guard as documented satisfies the conditions. -/
theorem tatsuGuard_refuses : ∀ n c t, (∃ a l, n.toList = a :: l ∧ a.isAlpha = true) →
    (∀ d ∈ n.toList, d.isAlphanum = true) → c.isAlphanum = true → tatsuGuard n (c :: t) = false := by
  intro n c t _ h2 h3
  have : n.toList.all Char.isAlphanum = true := List.all_eq_true.2 h2
  simp [tatsuGuard, this, h3]

theorem tatsuGuard_passes : ∀ n c t, c.isAlphanum = false → tatsuGuard n (c :: t) = true := by
  intro n c t h; simp [tatsuGuard, h]

/-- A configuration with a name, a network group, a port group and a time range. -/
def sampleEnv : Env :=
  { guard := tatsuGuard, names := [("web", ⟨.v4, 0x0a000001⟩)], netGroups := [("srv", .group "srv" [.any])],
    portGroups := [("ports", 7)], timeRanges := [("work", 3)] }

theorem sampleEnv_wf : sampleEnv.WF where
  names := by
    intro p hp
    simp [sampleEnv] at hp; subst hp
    exact ⟨'w', ['e', 'b'], by decide, by decide, by decide⟩
  netObjs := by intro p hp; simp [sampleEnv] at hp
  netGroups := by intro p hp; simp [sampleEnv] at hp; subst hp; exact word_of_decide (by decide +kernel)
  svcObjs := by intro p hp; simp [sampleEnv] at hp
  svcGroups := by intro p hp; simp [sampleEnv] at hp
  portGroups := by intro p hp; simp [sampleEnv] at hp; subst hp; exact word_of_decide (by decide +kernel)
  icmpGroups := by intro p hp; simp [sampleEnv] at hp
  protoGroups := by intro p hp; simp [sampleEnv] at hp
  timeRanges := by intro p hp; simp [sampleEnv] at hp; subst hp; exact word_of_decide (by decide +kernel)
  passes := tatsuGuard_passes
  refuses := tatsuGuard_refuses

/-- The rule of the sample line. -/
def sampleRule : PRule :=
  { id := "outside", extended := "extended", mode := "permit", protocol := .name "tcp",
    src := ⟨.group "srv" [.any], some (.range "1024" "65535")⟩, dst := ⟨.host ⟨.v4, 0x0a000001⟩, some (.port "eq" "www")⟩,
    options := [("log", .log [["3"], ["interval", "300"]]), ("inactive", .inactive)] }

/-- The words of the sample line. -/
def sampleWords : List String :=
  ["access-list", "outside", "extended", "permit", "tcp", "object-group", "srv", "range", "1024", "65535", "host", "web",
   "eq", "www", "log", "3", "interval", "300", "inactive"]

theorem C66_sample_words : RuleWords sampleEnv sampleWords sampleRule := by
  have dt : ∀ {s : List Char}, (!s.isEmpty && s.all Char.isDigit) = true → DigitText s := by
    intro s h
    simp only [Bool.and_eq_true, List.all_eq_true] at h
    exact ⟨by intro e; rw [e] at h; simp at h, h.2⟩
  refine Or.inl (.general "outside" "permit" ["tcp"] (["object-group", "srv"] ++ ["range", "1024", "65535"])
    (["host", "web"] ++ ["eq", "www"]) ("log" :: (["3", "interval", "300"] ++ ["inactive"])) sampleRule
    [.log [["3"], ["interval", "300"]], .inactive] ⟨by decide, by decide +kernel⟩ (by decide) (.code "tcp" (by decide)) (by decide)
    (by decide) (.port _ _ _ _ (.group "srv" _ rfl) (.range _ _ (Or.inr ⟨dt (by decide +kernel), by decide +kernel, by decide +kernel⟩)
      (Or.inr ⟨dt (by decide +kernel), by decide +kernel, by decide +kernel⟩) (fun _ _ => by decide +kernel)))
    (.port _ _ _ _ (.host "host" "web" _ (by decide) (.name _ rfl)) (.op "eq" "www" (by decide) (Or.inl (by decide +kernel))))
    ?_ (.log ["3", "interval", "300"] _ ["inactive"] _ (.level "3" _ _ (by decide) (.interval "300" _ _ (dt (by decide +kernel)) .nil))
      (.inactive _ _ .nil)) rfl rfl rfl ?_ rfl rfl rfl)
  · rintro ⟨h, -⟩; cases h
  · exact optionsAre_fold [.log [["3"], ["interval", "300"]], .inactive]

/-- The sample line. -/
def sampleLine : List Char :=
  "access-list outside extended permit tcp object-group srv range 1024 65535  host web eq www log 3 interval 300\tinactive \r\n".toList

theorem C66_sample_line : Line sampleWords sampleLine := by
  have bl : Blanks [' '] := by intro c hc; simp at hc; exact Or.inl hc
  have bl2 : Blanks [' ', ' '] := by intro c hc; simp at hc; exact Or.inl hc
  have bt : Blanks ['\t'] := by intro c hc; simp at hc; exact Or.inr hc
  have c1 : ∀ {w : String} {ws : List String} {t : List Char}, Spaced ws t → Spaced (w :: ws) (w.toList ++ ([' '] ++ t)) :=
    fun h => .cons _ _ _ _ (by simp) bl h
  exact ⟨_, [' '], ['\r', '\n'],
      c1 (c1 (c1 (c1 (c1 (c1 (c1 (c1 (c1 (.cons _ [' ', ' '] _ _ (by simp) bl2 (c1 (c1 (c1 (c1 (c1 (c1 (c1
        (.cons _ ['\t'] _ _ (by simp) bt (.one _)))))))))))))))))), bl, Or.inr rfl, by decide +kernel⟩

/-- The sample line is a line of these words, and the parser gives the rule. -/
theorem C66_sample (rest : List Char) : ∃ d, accessList sampleEnv (sampleLine ++ rest) =
    .ok (some { sampleRule with options := d }) rest ∧ ∀ k, dGet d k = dGet sampleRule.options k := by
  obtain ⟨d, h1, h2⟩ := C66_line_read_as_written sampleEnv sampleEnv_wf sampleWords sampleRule C66_sample_words _
    C66_sample_line rest
  exact ⟨d, h2, h1⟩

end Acltk.AclText
