import Verif.Lemmas.IosReadIface
import Verif.Props.Banner
/-!
# Reading the single IOS commands as written
-/
namespace Acltk.IosText
open Acltk Acltk.Lookup Acltk.Peg Acltk.AclText
open Acltk.FwsmText (St Bare LineRest Aft Sta ip4_read kwWord tok_self toeol_read nl_lf nl_ok word_no_lf blanks_no_lf
  sta_of_line sta_of_bare kw_step kw_no ip6_not_ip4_word NoSp sp_fail sp_cons Indented Skip skip_word tok_char skip_char
  ws_line lineEnd_eow interfaceRef identifier_not_ip4)

variable {tr : Bool} {rest : Text} {g : Guard}

/-! ## keywords that are not there -/

/-- Nothing that begins with `w` and a word end begins with the token `k`. -/
def noTok (w k : String) : Bool :=
  (k.toList.all (fun c => !isBlank c) && !mayMatch w k) || (!k.toList.isPrefixOf w.toList && !w.toList.isPrefixOf k.toList)

theorem noTok_fail (hg : GuardOk g) {w k : String} (h : noTok w k = true) {t : Text} (ht : EndOfWord t) :
    tok g k (w.toList ++ t) = .fail := by
  unfold noTok at h
  simp only [Bool.or_eq_true, Bool.and_eq_true, Bool.not_eq_true'] at h
  rcases h with ⟨h1, h2⟩ | ⟨h1, h2⟩
  · exact tok_no hg (noBlank_of_decide h1) ht h2
  · unfold tok
    cases hx : token g (w.toList ++ t) k with
    | none => rfl
    | some p =>
      exfalso
      have hp : k.toList <+: w.toList ++ t := ⟨_, (token_inv hx).2.symm⟩
      rcases List.prefix_or_prefix_of_prefix hp (List.prefix_append w.toList t) with h | h
      · rw [List.isPrefixOf_iff_prefix.2 h] at h1; cases h1
      · rw [List.isPrefixOf_iff_prefix.2 h] at h2; cases h2

/-- No name guard on a token that is not alphanumeric. -/
theorem tok_symbol (hy : ∀ n t, (∃ d ∈ n.toList, d.isAlphanum = false) → g n t = true) {k : String}
    (hk : (k.toList.any (fun d => !d.isAlphanum)) = true) (t : Text) : tok g k (k.toList ++ t) = .ok k t := by
  unfold tok token
  have hgk : g k t = true := by
    apply hy
    simp only [List.any_eq_true, Bool.not_eq_true'] at hk
    exact hk
  rw [if_pos (List.isPrefixOf_iff_prefix.2 (List.prefix_append _ _))]
  simp [hgk]

theorem ignoredOf_no {l : List (String × Tail)} {t : Text} (h : ∀ kt ∈ l, tok g kt.1 t = .fail) : ignoredOf g l t = .fail := by
  unfold ignoredOf
  induction l with
  | nil => rfl
  | cons x l ih =>
    rw [List.map_cons, alts_fail (bind_fail (h x (by simp)))]
    exact ih (fun y hy => h y (by simp [hy]))

theorem ignoredOf_noTok (hg : GuardOk g) {l : List (String × Tail)} {w : String} (h : (l.all (fun kt => noTok w kt.1)) = true)
    {t : Text} (ht : EndOfWord t) : ignoredOf g l (w.toList ++ t) = .fail :=
  ignoredOf_no (fun kt hkt => noTok_fail hg (List.all_eq_true.1 h kt hkt) ht)

/-- The first keyword of the list that is there. -/
theorem ignoredOf_find {l : List (String × Tail)} {t u r : Text} {k : String} {f : Tail}
    (hf : ∃ a b, l = a ++ (k, f) :: b ∧ ∀ kt ∈ a, tok g kt.1 t = .fail) (hk : tok g k t = .ok k u) (hr : tail f u = .ok () r) :
    ignoredOf g l t = .ok () r := by
  obtain ⟨a, b, rfl, ha⟩ := hf
  unfold ignoredOf
  induction a with
  | nil =>
    apply alts_ok
    show (tok g k >>= fun _ => tail f) t = _
    rw [bind_ok hk]; exact hr
  | cons x a ih =>
    rw [List.cons_append, List.map_cons, alts_fail (bind_fail (ha x (by simp)))]
    exact ih (fun y hy => ha y (by simp [hy]))

/-- The first entry of the list whose keyword may stand there. -/
def firstOf (w : String) (l : List (String × Tail)) : Option (String × Tail) := l.find? (fun kt => !noTok w kt.1)

theorem firstOf_split (hg : GuardOk g) {w : String} {l : List (String × Tail)} {kf : String × Tail} (h : firstOf w l = some kf)
    {t : Text} (ht : EndOfWord t) : ∃ a b, l = a ++ kf :: b ∧ ∀ kt ∈ a, tok g kt.1 (w.toList ++ t) = .fail := by
  unfold firstOf at h
  rw [List.find?_eq_some_iff_append] at h
  obtain ⟨-, a, b, h1, h2⟩ := h
  exact ⟨a, b, h1, fun kt hkt => noTok_fail hg (by simpa using h2 kt hkt) ht⟩

/-! ## tails -/

theorem ignoredIndent_read {l : List Char} (h : Indented l) (hr : NoSp rest) : ignoredIndent (l ++ rest) = .ok () rest := by
  have key : many (do
    sp
    let _ ← toeol
    nl) (l ++ rest) = .ok (l.filter (· == '\n') |>.map (fun _ => ())) rest := by
    induction h with
    | nil =>
      apply many_fail
      rw [List.nil_append]
      exact bind_fail (sp_fail hr)
    | cons l t hl _ ih =>
      have et : ' ' :: (l ++ '\n' :: t) ++ rest = ' ' :: (l ++ '\n' :: (t ++ rest)) := by simp
      have ef : (' ' :: (l ++ '\n' :: t)).filter (· == '\n') = '\n' :: t.filter (· == '\n') := by
        have : l.filter (· == '\n') = [] := by
          rw [List.filter_eq_nil_iff]; intro c hc; simp; rintro rfl; exact hl hc
        simp [List.filter_append, this]
      rw [et, ef]
      refine many_ok (r := t ++ rest) ?_ (by simp; omega) ih
      rw [bind_ok (sp_cons _), bind_ok (toeol_read hl _)]
      rfl
  unfold ignoredIndent
  rw [bind_ok key]
  rfl

theorem tail_read {f : Tail} {u : List Char} (h : TailText f u) (hr : NoSp rest) : tail f (u ++ rest) = .ok () rest := by
  cases h with
  | ws c u hc hu =>
    obtain ⟨v, hv, hw⟩ := ws_line hc hu rest
    have et : c :: (u ++ ['\n']) ++ rest = c :: (u ++ '\n' :: rest) := by simp
    rw [et, tail, bind_ok hw, bind_ok (toeol_read hv rest)]
    rfl
  | eol u hu =>
    have et : u ++ ['\n'] ++ rest = u ++ '\n' :: rest := by simp
    rw [et, tail, bind_ok (toeol_read hu.1 rest)]
    rfl
  | bare n hn => exact nl_ok hn
  | wsIndent c u l hc hu hl =>
    obtain ⟨v, hv, hw⟩ := ws_line hc hu (l ++ rest)
    have et : c :: (u ++ '\n' :: l) ++ rest = c :: (u ++ '\n' :: (l ++ rest)) := by simp
    rw [et, tail, bind_ok hw, bind_ok (toeol_read hv _), bind_ok (nl_lf _)]
    exact ignoredIndent_read hl hr
  | eolIndent u l hu hl =>
    have et : u ++ '\n' :: l ++ rest = u ++ '\n' :: (l ++ rest) := by simp
    rw [et, tail, bind_ok (toeol_read hu.1 _), bind_ok (nl_lf _)]
    exact ignoredIndent_read hl hr
  | bareIndent n l hn hl =>
    rw [List.append_assoc, tail, bind_ok (nl_ok hn)]
    exact ignoredIndent_read hl hr

theorem tail_eow {f : Tail} {u : List Char} (h : TailText f u) (rest : Text) : EndOfWord (u ++ rest) := by
  have bl : ∀ {c : Char} (v : List Char), c = ' ' ∨ c = '\t' → EndOfWord (c :: v) := by
    rintro c v (rfl | rfl)
    · exact ⟨v, by simp⟩
    · exact ⟨v, by simp⟩
  cases h with
  | ws c u hc hu => exact bl _ hc
  | eol u hu => rw [List.append_assoc]; exact hu.eow rest
  | bare n hn => exact lineEnd_eow hn rest
  | wsIndent c u l hc hu hl => exact bl _ hc
  | eolIndent u l hu hl => rw [List.append_assoc]; exact hu.eow _
  | bareIndent n l hn hl => rw [List.append_assoc]; exact lineEnd_eow hn _

theorem tailEol_read {u : List Char} (hu : '\n' ∉ u) (rest : Text) : tail .eol (u ++ '\n' :: rest) = .ok () rest := by
  rw [tail, bind_ok (toeol_read hu rest)]
  rfl

/-! ## the ignored commands -/

/-- Where the keyword is found. -/
def foundIn (kf : String × Tail) : Bool :=
  let no (l : List (String × Tail)) := l.all (fun x => noTok kf.1 x.1)
  (firstOf kf.1 ignored1 == some kf) ||
  (no ignored1 && noTok kf.1 "banner" && (firstOf kf.1 ignored2 == some kf)) ||
  (no ignored1 && noTok kf.1 "banner" && no ignored2 && noTok kf.1 "define" && (firstOf kf.1 ignored3 == some kf)) ||
  (no ignored1 && noTok kf.1 "banner" && no ignored2 && noTok kf.1 "define" && no ignored3 && noTok kf.1 "Using" &&
    (firstOf kf.1 ignored4 == some kf))

theorem ignoredForms_found : ∀ kf ∈ ignoredForms, foundIn kf = true := by decide +kernel

/-- The keywords of the commands that are not read over. -/
def keywords : List String := ["hostname", "domain-name", "interface", "object-group", "access-list", "ip", "ipv6"]

theorem ignoredForms_words : ∀ kf ∈ ignoredForms, Word kf.1 ∧ kf.1 ∉ keywords ∧ noTok kf.1 "version" = true := by
  intro kf h
  refine ⟨word_of_decide ?_, ?_⟩
  · revert kf; decide +kernel
  · revert kf; decide +kernel

theorem banner_no (hg : GuardOk g) {w : String} (h : noTok w "banner" = true) {t : Text} (ht : EndOfWord t) :
    banner g (w.toList ++ t) = .fail := by
  unfold banner; exact bind_fail (noTok_fail hg h ht)

theorem defineRange_no (hg : GuardOk g) {w : String} (h : noTok w "define" = true) {t : Text} (ht : EndOfWord t) :
    defineRange g (w.toList ++ t) = .fail := by
  unfold defineRange; exact bind_fail (noTok_fail hg h ht)

theorem usingLine_no (hg : GuardOk g) {w : String} (h : noTok w "Using" = true) {t : Text} (ht : EndOfWord t) :
    usingLine g (w.toList ++ t) = .fail := by
  unfold usingLine; exact bind_fail (noTok_fail hg h ht)

theorem ignored_read (hg : GuardOk g) {k : String} {f : Tail} {u : List Char} (hk : (k, f) ∈ ignoredForms)
    (hu : TailText f u) (hr : NoSp rest) : ignored g (k.toList ++ (u ++ rest)) = .ok () rest := by
  have ht := tail_eow hu rest
  have hb : (k.toList.all (fun c => !isBlank c)) = true :=
    (by decide +kernel : ∀ kf ∈ ignoredForms, (kf.1.toList.all (fun c => !isBlank c)) = true) _ hk
  have fin : ∀ {l : List (String × Tail)}, firstOf k l = some (k, f) → ignoredOf g l (k.toList ++ (u ++ rest)) = .ok () rest :=
    fun h => ignoredOf_find (firstOf_split hg h ht) (tok_self hg hb ht) (tail_read hu hr)
  have h := ignoredForms_found _ hk
  unfold foundIn at h
  simp only [Bool.or_eq_true, Bool.and_eq_true, beq_iff_eq] at h
  unfold ignored
  rcases h with ((h | h) | h) | h
  · exact alts_ok (fin h)
  · rw [alts_fail (ignoredOf_noTok hg h.1.1 ht), alts_fail (banner_no hg h.1.2 ht)]
    exact alts_ok (fin h.2)
  · rw [alts_fail (ignoredOf_noTok hg h.1.1.1.1 ht), alts_fail (banner_no hg h.1.1.1.2 ht), alts_fail (ignoredOf_noTok hg h.1.1.2 ht),
      alts_fail (defineRange_no hg h.1.2 ht)]
    exact alts_ok (fin h.2)
  · rw [alts_fail (ignoredOf_noTok hg h.1.1.1.1.1.1 ht), alts_fail (banner_no hg h.1.1.1.1.1.2 ht),
      alts_fail (ignoredOf_noTok hg h.1.1.1.1.2 ht), alts_fail (defineRange_no hg h.1.1.1.2 ht),
      alts_fail (ignoredOf_noTok hg h.1.1.2 ht), alts_fail (usingLine_no hg h.1.2 ht)]
    exact alts_ok (fin h.2)

/-- Text that begins with this character begins with none of the keywords. -/
theorem ignoredOf_char {c : Char} {l : List (String × Tail)} (h : ∀ kt ∈ l, kt.1.toList ≠ [] ∧ ∀ d ∈ kt.1.toList.head?, d ≠ c)
    (t : Text) : ignoredOf g l (c :: t) = .fail :=
  ignoredOf_no (fun kt hkt => tok_char (h kt hkt).2 (h kt hkt).1)

theorem comment_read (hy : ∀ n t, (∃ d ∈ n.toList, d.isAlphanum = false) → g n t = true) {k : String}
    (hk : k ∈ [":", "!", "Current configuration"]) {u : List Char} (hu : '\n' ∉ u) (rest : Text) :
    ignored g (k.toList ++ (u ++ '\n' :: rest)) = .ok () rest := by
  have fin : ∀ {l : List (String × Tail)}, (∃ a b, l = a ++ (k, .eol) :: b ∧ ∀ kt ∈ a, tok g kt.1 (k.toList ++ (u ++ '\n' :: rest)) = .fail) →
      ignoredOf g l (k.toList ++ (u ++ '\n' :: rest)) = .ok () rest := fun h =>
    ignoredOf_find h (tok_symbol hy ((by decide : ∀ k ∈ [":", "!", "Current configuration"],
      (k.toList.any (fun d => !d.isAlphanum)) = true) k hk) _) (tailEol_read hu rest)
  unfold ignored
  simp only [List.mem_cons, List.not_mem_nil, or_false] at hk
  rcases hk with rfl | rfl | rfl
  · apply alts_ok
    exact fin ⟨[("!", .eol)], ignored1.drop 2, rfl, by
      intro kt h; simp at h; subst h; exact tok_char (by decide) (by decide)⟩
  · apply alts_ok
    exact fin ⟨[], ignored1.drop 1, rfl, by simp⟩
  · have e : "Current configuration".toList ++ (u ++ '\n' :: rest) = 'C' :: ("urrent configuration".toList ++ (u ++ '\n' :: rest)) := by
      simp
    rw [alts_fail (by rw [e]; exact ignoredOf_char (by decide +kernel) _),
      alts_fail (show banner g _ = .fail from by rw [e]; exact bind_fail (tok_char (by decide) (by decide)))]
    apply alts_ok
    refine fin ⟨ignored2.take 10, [], rfl, ?_⟩
    intro kt hkt
    rw [e]
    have := (by decide +kernel : ∀ kt ∈ ignored2.take 10, kt.1.toList ≠ [] ∧ ∀ d ∈ kt.1.toList.head?, d ≠ 'C') kt hkt
    exact tok_char this.2 this.1

/-- No ignored command begins with this character. -/
theorem ignored_char {c : Char} (hc : c = '\n' ∨ c = '\r') (t : Text) : ignored g (c :: t) = nl (c :: t) := by
  have l1 : ∀ l ∈ [ignored1, ignored2, ignored3, ignored4], ∀ kt ∈ l, kt.1.toList ≠ [] ∧ ∀ d ∈ kt.1.toList.head?, d ≠ '\n' ∧ d ≠ '\r' := by
    decide +kernel
  have l2 : ∀ l ∈ [ignored1, ignored2, ignored3, ignored4], ignoredOf g l (c :: t) = .fail := by
    intro l hl
    apply ignoredOf_char
    intro kt hkt
    refine ⟨(l1 l hl kt hkt).1, fun d hd => ?_⟩
    have := (l1 l hl kt hkt).2 d hd
    rcases hc with rfl | rfl
    · exact this.1
    · exact this.2
  have kk : ∀ k ∈ ["banner", "define", "Using"], tok g k (c :: t) = .fail := by
    intro k hk
    have := (by decide : ∀ k ∈ ["banner", "define", "Using"], k.toList ≠ [] ∧ ∀ d ∈ k.toList.head?, d ≠ '\n' ∧ d ≠ '\r') k hk
    apply tok_char _ this.1
    intro d hd
    rcases hc with rfl | rfl
    · exact (this.2 d hd).1
    · exact (this.2 d hd).2
  unfold ignored
  have hb : banner g (c :: t) = .fail := by unfold banner; exact bind_fail (kk _ (by simp))
  have hd : defineRange g (c :: t) = .fail := by unfold defineRange; exact bind_fail (kk _ (by simp))
  have hu : usingLine g (c :: t) = .fail := by unfold usingLine; exact bind_fail (kk _ (by simp))
  rw [alts_fail (l2 _ (by simp)), alts_fail hb, alts_fail (l2 _ (by simp)),
    alts_fail hd, alts_fail (l2 _ (by simp)), alts_fail hu, alts_fail (l2 _ (by simp))]
  cases h : nl (c :: t) with
  | ok a r => exact alts_ok h
  | fail => rw [alts_fail h]; rfl
  | raise e => exfalso; unfold nl at h; split at h <;> cases h

theorem define_read (hg : GuardOk g) (hy : ∀ n t, (∃ d ∈ n.toList, d.isAlphanum = false) → g n t = true) {b u : List Char}
    (hne : b ≠ []) (hb : Blanks b) (hu : '\n' ∉ u) (rest : Text) :
    ignored g ("define".toList ++ (b ++ ("interface-range".toList ++ (u ++ '\n' :: rest)))) = .ok () rest := by
  have ht := blanks_end (t := "interface-range".toList ++ (u ++ '\n' :: rest)) hne hb
  unfold ignored
  rw [alts_fail (ignoredOf_noTok hg (by decide +kernel) ht), alts_fail (banner_no hg (by decide +kernel) ht),
    alts_fail (ignoredOf_noTok hg (by decide +kernel) ht)]
  apply alts_ok
  unfold defineRange
  rw [bind_ok (tok_self hg (by decide) ht), bind_ok (ws_ok hne hb (word_head (kwWord (by decide)) _)),
    bind_ok (tok_symbol hy (by decide) _)]
  exact tailEol_read hu rest

/-! ## banners -/

theorem banner_found (hg : GuardOk g) {b b' : List Char} (hne : b ≠ []) (hb : Blanks b) (hne' : b' ≠ []) (hb' : Blanks b')
    {t : Text} (hh : ∀ c ∈ t.head?, c ≠ ' ' ∧ c ≠ '\t') {d : Banner.Delim} {u v m : Text} (hd : delimStart g t = .ok d u)
    (hm : Banner.banner d u = some (m, v)) {n : List Char} (hv : v = n ++ rest) (hn : n = ['\n'] ∨ n = ['\r', '\n']) :
    ignored g ("banner".toList ++ (b ++ ("motd".toList ++ (b' ++ t)))) = .ok () rest := by
  unfold ignored
  rw [alts_fail (ignoredOf_noTok hg (by decide +kernel) (blanks_end hne hb))]
  apply alts_ok
  unfold banner
  rw [bind_ok (tok_self hg (by decide) (blanks_end hne hb)), bind_ok (ws_ok hne hb (word_head (kwWord (by decide)) _)),
    bind_ok (tok_self hg (by decide) (blanks_end hne' hb')), bind_ok (ws_ok hne' hb' hh), bind_ok hd,
    bind_ok (show delimMsg d u = Res.ok m v from by simp only [delimMsg, hm]), hv]
  exact nl_ok hn

theorem bannerChar_read (hg : GuardOk g) {b b' m : List Char} {d : Char} {n : List Char} (hne : b ≠ []) (hb : Blanks b)
    (hne' : b' ≠ []) (hb' : Blanks b') (hd : d.toNat < 128) (hd' : d ∉ ['^', ' ', '\t', '\n']) (hm : d ∉ m)
    (hn : n = ['\n'] ∨ n = ['\r', '\n']) :
    ignored g ("banner".toList ++ (b ++ ("motd".toList ++ (b' ++ (d :: (m ++ (d :: (n ++ rest)))))))) = .ok () rest := by
  simp only [List.mem_cons, List.not_mem_nil, or_false, not_or] at hd'
  refine banner_found hg hne hb hne' hb' (by intro c hc; simp at hc; subst hc; exact ⟨hd'.2.1, hd'.2.2.1⟩)
    (d := .char d) (u := m ++ d :: (n ++ rest)) (v := n ++ rest) (m := m) ?_ ?_ rfl hn
  · unfold delimStart
    have hk : tok g "^C" (d :: (m ++ d :: (n ++ rest))) = .fail :=
      tok_char (by intro c hc; simp at hc; subst hc; exact Ne.symm hd'.1) (by decide)
    refine (alt_fail (bind_fail hk)).trans ?_
    simp [delimChar, hd'.2.2.2]
  · simp only [Banner.banner, Banner.literals_ascii hd, Banner.scanUntil_first hm]
    simp [Banner.stripPrefix]

theorem bannerCaret_read (hg : GuardOk g) (hy : ∀ n t, (∃ d ∈ n.toList, d.isAlphanum = false) → g n t = true)
    {b b' m : List Char} {n : List Char} (hne : b ≠ []) (hb : Blanks b)
    (hne' : b' ≠ []) (hb' : Blanks b') (hm : '^' ∉ m) (hn : n = ['\n'] ∨ n = ['\r', '\n']) :
    ignored g ("banner".toList ++ (b ++ ("motd".toList ++ (b' ++ ('^' :: 'C' :: (m ++ ('^' :: 'C' :: (n ++ rest)))))))) = .ok () rest := by
  refine banner_found hg hne hb hne' hb' (by intro c hc; simp at hc; subst hc; decide)
    (d := .caretC) (u := m ++ '^' :: 'C' :: (n ++ rest)) (v := n ++ rest) (m := m) ?_ ?_ rfl hn
  · unfold delimStart
    apply alt_ok
    rw [show '^' :: 'C' :: (m ++ ('^' :: 'C' :: (n ++ rest))) = "^C".toList ++ (m ++ ('^' :: 'C' :: (n ++ rest))) from by simp,
      bind_ok (tok_symbol hy (by decide) _)]
    rfl
  · have : Banner.scanCaret (m ++ '^' :: 'C' :: (n ++ rest)) = (m, '^' :: 'C' :: (n ++ rest)) := by
      induction m with
      | nil => exact Banner.scanCaret_stop _
      | cons c m ih =>
        simp only [List.mem_cons, not_or] at hm
        rw [List.cons_append, Banner.scanCaret_other (Ne.symm hm.1), ih hm.2]
    simp only [Banner.banner, this]
    simp [Banner.stripPrefix]

end Acltk.IosText
