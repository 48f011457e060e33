import Verif.Lemmas.IosLineLogic
import Verif.Props.Banner
/-!
# The lines of a banner
-/
namespace Acltk.IosLines
open Acltk Acltk.Lookup Acltk.Peg Acltk.AclText Acltk.IosText

variable {g : Guard}

theorem occurs_iff {d l : List Char} (hd : d ≠ []) : occurs d l = true ↔ ∃ a b, l = a ++ (d ++ b) := by
  induction l with
  | nil =>
    constructor
    · intro h
      cases d with
      | nil => exact absurd rfl hd
      | cons x d => cases h
    · rintro ⟨a, b, h⟩
      have := congrArg List.length h
      simp at this
      exact absurd (List.eq_nil_of_length_eq_zero (by omega)) hd
  | cons c t ih =>
    simp only [occurs, Bool.or_eq_true, List.isPrefixOf_iff_prefix, ih]
    constructor
    · rintro (⟨u, hu⟩ | ⟨a, b, rfl⟩)
      · exact ⟨[], u, hu.symm⟩
      · exact ⟨c :: a, b, rfl⟩
    · rintro ⟨a, b, h⟩
      cases a with
      | nil => exact Or.inl ⟨b, h.symm⟩
      | cons x a => cases h; exact Or.inr ⟨a, b, rfl⟩

/-- The scan for `^C` stops there; a `^C` that it has passed stood behind another caret. -/
theorem scanCaret_spec (t : List Char) : (Banner.scanCaret t).1 ++ (Banner.scanCaret t).2 = t ∧
    ∀ a b, (Banner.scanCaret t).1 = a ++ (['^', 'C'] ++ b) → ∃ a', a = a' ++ ['^'] := by
  induction t using Banner.scanCaret.induct with
  | case1 => exact ⟨rfl, by rintro a b h; simp [Banner.scanCaret] at h⟩
  | case2 => exact ⟨rfl, by rintro a b h; simp [Banner.scanCaret] at h⟩
  | case3 t =>
    refine ⟨by simp [Banner.scanCaret], ?_⟩
    rintro a b h
    simp [Banner.scanCaret] at h
  | case4 d t hd ih =>
    have e : Banner.scanCaret ('^' :: d :: t) = ('^' :: d :: (Banner.scanCaret t).1, (Banner.scanCaret t).2) := by
      simp [Banner.scanCaret, hd]
    rw [e]
    refine ⟨by simp [ih.1], ?_⟩
    rintro a b h
    match a, h with
    | [], h => simp at h; exact absurd h.1 hd
    | [x], h => simp at h; exact ⟨[], by rw [h.1]; rfl⟩
    | x :: y :: a, h =>
      simp at h
      obtain ⟨a', rfl⟩ := ih.2 a b (by simpa using h.2.2)
      exact ⟨x :: y :: a', by simp⟩
  | case5 c t h1 h2 ih =>
    have hc : c ≠ '^' := by
      rintro rfl
      cases t with
      | nil => exact h1 rfl rfl
      | cons y t => exact h2 y t rfl rfl
    have e : Banner.scanCaret (c :: t) = (c :: (Banner.scanCaret t).1, (Banner.scanCaret t).2) := by
      cases t with
      | nil => simp [Banner.scanCaret]
      | cons y t => simp [Banner.scanCaret]
    rw [e]
    refine ⟨by simp [ih.1], ?_⟩
    rintro a b h
    cases a with
    | nil => simp at h; exact absurd h.1 hc
    | cons x a =>
      simp at h
      obtain ⟨a', rfl⟩ := ih.2 a b (by simpa using h.2)
      exact ⟨x :: a', by simp⟩

theorem stripPrefix_some {p t r : List Char} (h : Banner.stripPrefix p t = some r) : t = p ++ r := by
  unfold Banner.stripPrefix at h
  split at h
  · rename_i hp
    cases h
    obtain ⟨u, rfl⟩ := List.isPrefixOf_iff_prefix.1 hp
    simp
  · cases h

theorem scanUntil_spec (c : Char) (t : List Char) : (Banner.scanUntil [c] t).1 ++ (Banner.scanUntil [c] t).2 = t ∧
    c ∉ (Banner.scanUntil [c] t).1 := by
  induction t with
  | nil => simp [Banner.scanUntil]
  | cons x t ih =>
    unfold Banner.scanUntil
    split
    · simp
    · rename_i hx
      refine ⟨by simp [ih.1], ?_⟩
      simp only [List.mem_singleton] at hx
      simp only [List.mem_cons, not_or]
      exact ⟨fun e => hx e.symm, ih.2⟩

/-- What a banner with a regular delimiter reads: the message up to the first delimiter. -/
theorem banner_spec {d : Banner.Delim} {t m r : List Char} (h : Banner.banner d t = some (m, r))
    (hd : ∀ c, d = .char c → c.toNat < 128) :
    t = m ++ (d.text ++ r) ∧ ∀ a b, m = a ++ (d.text ++ b) → ∃ a', a = a' ++ ['^'] ∧ d = .caretC := by
  cases d with
  | caretC =>
    simp only [Banner.banner, Option.map_eq_some_iff, Prod.mk.injEq] at h
    obtain ⟨rest, h1, rfl, rfl⟩ := h
    obtain ⟨h2, h3⟩ := scanCaret_spec t
    refine ⟨?_, fun a b e => ?_⟩
    · rw [show Banner.Delim.text .caretC = ['^', 'C'] from rfl, ← stripPrefix_some h1, h2]
    · obtain ⟨a', ha⟩ := h3 a b e
      exact ⟨a', ha, rfl⟩
  | char c =>
    simp only [Banner.banner, Banner.literals_ascii (hd c rfl), Option.map_eq_some_iff, Prod.mk.injEq] at h
    obtain ⟨rest, h1, rfl, rfl⟩ := h
    obtain ⟨h2, h3⟩ := scanUntil_spec c t
    refine ⟨?_, fun a b e => ?_⟩
    · rw [show Banner.Delim.text (.char c) = [c] from rfl, ← stripPrefix_some h1, h2]
    · exact absurd (by rw [e]; simp [Banner.Delim.text]) h3

/-- A text without a line feed lies in one line. -/
theorem infix_line {x : List Char} (hx : '\n' ∉ x) (pre a b : List Char) :
    ∃ l ∈ linesFrom pre (a ++ (x ++ b)), ∃ u v, l = u ++ (x ++ v) := by
  induction a generalizing pre with
  | nil =>
    rw [List.nil_append, linesFrom_noNl b hx]
    obtain ⟨u, ls, e⟩ := linesFrom_head (pre ++ x) b
    exact ⟨pre ++ x ++ u, by rw [e]; simp, pre, u, by simp⟩
  | cons c a ih =>
    simp only [List.cons_append, linesFrom]
    split
    · obtain ⟨l, hl, h⟩ := ih []
      exact ⟨l, by simp [hl], h⟩
    · exact ih _

/-- Inside a banner nothing is a rule up to the line with the delimiter. -/
theorem rulesIn_banner {d : List Char} (hd : d ≠ []) (hdn : '\n' ∉ d) {e : List Char} (he : e = ['\n'] ∨ e = ['\r', '\n']) (cur : Option String)
    (pre m r : List Char) (h : occurs d (pre ++ m) = false) :
    rulesIn (some d) cur (linesFrom pre (m ++ (d ++ (e ++ r)))) = rulesIn none none (linesFrom [] r) := by
  induction m generalizing pre cur with
  | nil =>
    have fin : ∀ v : List Char, rulesIn (some d) cur ((pre ++ d ++ v) :: linesFrom [] r) = rulesIn none none (linesFrom [] r) := by
      intro v
      rw [rulesIn]
      simp only [(occurs_iff (l := pre ++ d ++ v) hd).2 ⟨pre, v, by simp⟩, if_true]
    rw [List.nil_append, linesFrom_noNl _ hdn]
    rcases he with rfl | rfl
    · simpa [linesFrom] using fin []
    · simpa [linesFrom] using fin ['\r']
  | cons c m ih =>
    simp only [List.cons_append, linesFrom]
    split
    · rename_i hc
      subst hc
      have no : ∀ {l : List Char} (a b : List Char), pre ++ '\n' :: m = a ++ (l ++ b) → occurs d l = false := by
        intro l a b e
        cases ho : occurs d l with
        | false => rfl
        | true =>
          obtain ⟨x, y, rfl⟩ := (occurs_iff hd).1 ho
          have := (occurs_iff (l := pre ++ '\n' :: m) hd).2 ⟨a ++ x, y ++ b, by rw [e]; simp⟩
          rw [h] at this
          cases this
      rw [rulesIn]
      simp only [no [] ('\n' :: m) (l := pre) (by simp), Bool.false_eq_true, if_false]
      exact ih none [] (by rw [List.nil_append]; exact no (pre ++ ['\n']) [] (by simp))
    · exact ih cur (pre ++ [c]) (by simpa using h)

/-- The beginning of a banner. -/
def bannerHead (b1 b2 x : List Char) : List Char := "banner".toList ++ (b1 ++ ("motd".toList ++ (b2 ++ x)))

theorem after_eq {k : String} {b x : List Char} (hb : b ≠ []) (hb' : ∀ c ∈ b, isBlank c = true) (hx : ∀ c ∈ x.head?, isBlank c = false) :
    after k (k.toList ++ (b ++ x)) = some x := by
  unfold after
  rw [if_pos (List.isPrefixOf_iff_prefix.2 (List.prefix_append _ _)), List.drop_left]
  cases b with
  | nil => exact absurd rfl hb
  | cons c b =>
    simp only [List.cons_append, hb' c (by simp), if_true, Option.some.injEq]
    have hb'' : ∀ c ∈ b, isBlank c = true := fun c hc => hb' c (by simp [hc])
    clear hb hb'
    induction b with
    | nil =>
      cases x with
      | nil => rfl
      | cons y x => simp [hx y (by simp)]
    | cons y b ih =>
      rw [List.cons_append, List.dropWhile_cons_of_pos (hb'' y (by simp))]
      exact ih (fun z hz => hb'' z (by simp [hz]))

theorem opens_banner {b1 b2 x : List Char} (h1 : b1 ≠ [] ∧ ∀ c ∈ b1, isBlank c = true) (h2 : b2 ≠ [] ∧ ∀ c ∈ b2, isBlank c = true)
    (hx : ∀ c ∈ x.head?, isBlank c = false) : opens (bannerHead b1 b2 x) = unclosed x := by
  unfold opens bannerHead
  rw [after_eq h1.1 h1.2 (by intro c hc; have : c = 'm' := by simpa using hc.symm
                             subst this; decide)]
  simp only
  rw [after_eq h2.1 h2.2 hx]

theorem step_banner (cur : Option String) (q : List Char) : step cur ("banner".toList ++ q) = (none, []) := by
  obtain ⟨v, ws, e, hv⟩ := words_first (x := 'b') (by decide) ("anner".toList ++ q)
  have hv' : v <+: "banner".toList ++ q := hv
  have n1 : v ≠ "access-list".toList := Apart.ne (by decide) hv'
  have n2 : v ≠ "ip".toList := Apart.ne (by decide) hv'
  have n3 : v ≠ "ipv6".toList := Apart.ne (by decide) hv'
  rw [show "banner".toList ++ q = 'b' :: ("anner".toList ++ q) from rfl, step_other cur (by decide), e,
    opened_none (ofList_ne n2) (ofList_ne n3), numbered_nil (ofList_ne n1)]

/-- The delimiter in the sense of the specification. -/
theorem unclosed_eq {d : Banner.Delim} {m : List Char} (hd : d = .char '^' → m.head? ≠ some 'C') :
    unclosed (d.text ++ m) = if occurs d.text m then none else some d.text := by
  cases d with
  | caretC => rfl
  | char c =>
    simp only [Banner.Delim.text, List.cons_append, List.nil_append]
    unfold unclosed
    split
    · rename_i m' e
      cases e
      exact absurd rfl (hd rfl)
    · rename_i h1 e
      cases e
      rfl
    · rename_i e
      cases e

/-- A banner from its first letter to the end of its last line. -/
theorem bannerText {d : Banner.Delim} {b1 b2 m e : List Char} (h1 : b1 ≠ [] ∧ ∀ c ∈ b1, isBlank c = true)
    (h2 : b2 ≠ [] ∧ ∀ c ∈ b2, isBlank c = true) (hx : ∀ c ∈ d.text.head?, isBlank c = false) (hdn : '\n' ∉ d.text)
    (hd : d = .char '^' → (m ++ (d.text ++ e)).head? ≠ some 'C')
    (he : e = ['\n'] ∨ e = ['\r', '\n']) (hm : occurs d.text m = false) :
    BannerText (bannerHead b1 b2 (d.text ++ (m ++ (d.text ++ e)))) := by
  have hne : d.text ≠ [] := by cases d <;> simp [Banner.Delim.text]
  have hx' : ∀ y : List Char, ∀ c ∈ (d.text ++ y).head?, isBlank c = false := by
    intro y c hc
    apply hx
    cases e : d.text with
    | nil => exact absurd e hne
    | cons z l => rw [e] at hc; simpa using hc
  have nb : ∀ {b : List Char}, (∀ c ∈ b, isBlank c = true) → '\n' ∉ b := fun h hn => absurd (h _ hn) (by decide)
  have hhead : ∀ y, '\n' ∉ y → '\n' ∉ bannerHead b1 b2 (d.text ++ y) := by
    intro y hy
    unfold bannerHead
    simp only [List.mem_append, not_or]
    exact ⟨by decide, nb h1.2, by decide, nb h2.2, hdn, hy⟩
  have happ : ∀ y z : List Char, bannerHead b1 b2 (d.text ++ (y ++ z)) = bannerHead b1 b2 (d.text ++ y) ++ z := by
    intro y z; simp [bannerHead]
  constructor
  · rcases he with rfl | rfl
    · exact ⟨bannerHead b1 b2 (d.text ++ (m ++ d.text)), by simp [bannerHead]⟩
    · exact ⟨bannerHead b1 b2 (d.text ++ (m ++ (d.text ++ ['\r']))), by simp [bannerHead]⟩
  intro cur r
  unfold IosLines.rules
  by_cases hn : '\n' ∈ m
  · obtain ⟨m1, m2, rfl, hm1⟩ := List.eq_append_cons_of_mem hn
    have no : ∀ {l : List Char} (a b : List Char), m1 ++ '\n' :: m2 = a ++ (l ++ b) → occurs d.text l = false := by
      intro l a b e
      cases ho : occurs d.text l with
      | false => rfl
      | true =>
        obtain ⟨x, y, rfl⟩ := (occurs_iff hne).1 ho
        have := (occurs_iff (l := m1 ++ '\n' :: m2) hne).2 ⟨a ++ x, y ++ b, by rw [e]; simp⟩
        rw [hm] at this
        cases this
    have e1 : bannerHead b1 b2 (d.text ++ (m1 ++ '\n' :: m2 ++ (d.text ++ e))) ++ r =
        bannerHead b1 b2 (d.text ++ m1) ++ ('\n' :: (m2 ++ (d.text ++ (e ++ r)))) := by simp [bannerHead]
    rw [e1, linesFrom_noNl _ (hhead m1 hm1), linesFrom, if_pos rfl, List.nil_append, rulesIn]
    have ho : opens (bannerHead b1 b2 (d.text ++ m1)) = some d.text := by
      rw [opens_banner h1 h2 (hx' m1), unclosed_eq, no [] ('\n' :: m2) (by simp)]
      · rfl
      · intro hc
        have := hd hc
        cases m1 with
        | nil => simp
        | cons z m1 => simpa using this
    simp only [ho]
    exact rulesIn_banner hne hdn he none [] m2 r (by rw [List.nil_append]; exact no (m1 ++ ['\n']) [] (by simp))
  · have one : ∀ v : List Char, '\n' ∉ v → e = v ++ ['\n'] →
        rulesIn none cur (linesFrom [] (bannerHead b1 b2 (d.text ++ (m ++ (d.text ++ e))) ++ r)) = rulesIn none none (linesFrom [] r) := by
      intro v hv ev
      have e1 : bannerHead b1 b2 (d.text ++ (m ++ (d.text ++ e))) ++ r =
        bannerHead b1 b2 (d.text ++ (m ++ (d.text ++ v))) ++ '\n' :: r := by rw [ev]; simp [bannerHead]
      rw [e1, linesFrom_noNl _ (hhead _ (by simp [hn, hdn, hv])), linesFrom, if_pos rfl, List.nil_append, rulesIn]
      have ho : opens (bannerHead b1 b2 (d.text ++ (m ++ (d.text ++ v)))) = none := by
        rw [opens_banner h1 h2 (hx' _), unclosed_eq, (occurs_iff hne).2 ⟨m, v, rfl⟩]
        · rfl
        · intro hc
          have := hd hc
          cases m with
          | nil =>
            subst hc
            simp [Banner.Delim.text]
          | cons z m => simpa using this
      simp only [ho]
      rw [show bannerHead b1 b2 (d.text ++ (m ++ (d.text ++ v))) = "banner".toList ++ (b1 ++ ("motd".toList ++ (b2 ++ (d.text ++ (m ++ (d.text ++ v))))))
        from rfl, step_banner]
      rfl
    rcases he with he | he
    · exact one [] (by simp) he
    · exact one ['\r'] (by simp) he

/-- Between two commands no line that begins with letters is in the way of a new command. -/
theorem SE.cases {cur : Option String} {p t : List Char} (h : SE cur p t) {x : Char} {u : List Char} (ht : t = x :: u) (hx : x.isAlpha = true) :
    ∀ c ∈ p, c = ' ' := by
  rcases h with rfl | h | h
  · simp
  · have := h.2 x (by rw [ht]; simp)
    rw [hx] at this
    cases this
  · exact h.2.2

/-- A banner is passed, and no rule with it. -/
theorem banner_T (hg : ∀ r, g "^C" r = true) : T SE (banner g) SE := by
  intro cur pre t a r hn hP hA h
  unfold banner at h
  obtain ⟨_, t1, k1, h⟩ := bind_inv h
  obtain ⟨_, t2, k2, h⟩ := bind_inv h
  obtain ⟨_, t3, k3, h⟩ := bind_inv h
  obtain ⟨_, t4, k4, h⟩ := bind_inv h
  obtain ⟨d, t5, k5, h⟩ := bind_inv h
  obtain ⟨m, t6, k6, k7⟩ := bind_inv h
  have blank : ∀ {c : List Char}, (c ≠ [] ∧ ∀ x ∈ c, x = ' ' ∨ x = '\t') → c ≠ [] ∧ ∀ x ∈ c, isBlank x = true := by
    rintro c ⟨h1, h2⟩
    refine ⟨h1, fun x hx => ?_⟩
    rcases h2 x hx with rfl | rfl <;> decide
  obtain ⟨c1, rfl, -, rfl⟩ := reads_tok _ _ _ _ _ k1
  obtain ⟨b1, rfl, hb1⟩ := reads_ws _ _ _ k2
  obtain ⟨c3, rfl, -, rfl⟩ := reads_tok _ _ _ _ _ k3
  have hmax := ws_max k4
  obtain ⟨b2, rfl, hb2⟩ := reads_ws _ _ _ k4
  replace hb1 := blank hb1
  replace hb2 := blank hb2
  have hd : t4 = d.text ++ t5 ∧ '\n' ∉ d.text ∧ (d = .char '^' → t5.head? ≠ some 'C') := by
    unfold delimStart at k5
    unfold alt at k5
    generalize hv : (do let _ ← tok g "^C"; pure Banner.Delim.caretC : P Banner.Delim) t4 = v at k5
    cases v with
    | ok d' u =>
      cases k5
      obtain ⟨x, u', j1, j2⟩ := bind_inv hv
      cases j2
      obtain ⟨c, rfl, -, rfl⟩ := reads_tok _ _ _ _ _ j1
      exact ⟨rfl, by decide, by intro h; cases h⟩
    | raise e => cases k5
    | fail =>
      simp only at k5
      cases t4 with
      | nil => cases k5
      | cons c t4 =>
        unfold delimChar at k5
        simp only at k5
        split at k5
        · cases k5
        · rename_i hc
          cases k5
          refine ⟨rfl, by simp [Banner.Delim.text, Ne.symm hc], ?_⟩
          intro hd hh
          cases hd
          cases t5 with
          | nil => cases hh
          | cons y t5 =>
            cases hh
            have : (do let _ ← tok g "^C"; pure Banner.Delim.caretC : P Banner.Delim) ('^' :: 'C' :: t5) = .ok .caretC t5 := by
              have : tok g "^C" ('^' :: 'C' :: t5) = .ok "^C" t5 := by
                unfold tok token
                have h1 : "^C".toList.isPrefixOf ('^' :: 'C' :: t5) = true := List.isPrefixOf_iff_prefix.2 ⟨t5, rfl⟩
                simp [h1, hg]
              show P.bind _ _ _ = _
              unfold P.bind
              rw [this]
              rfl
            rw [this] at hv
            cases hv
  obtain ⟨rfl, hdn, hcar⟩ := hd
  -- between two commands, in front of `banner`
  have hb := SE.cases hA (x := 'b') (u := "anner".toList ++ (b1 ++ ("motd".toList ++ (b2 ++ (d.text ++ t5))))) rfl (by decide)
  have hpre : pre = [] := by
    cases pre with
    | nil => rfl
    | cons x pre => exact (hP.now (by decide) (Or.inl ⟨x :: pre, "banner".toList, rfl, hb, Or.inl ⟨by simp, List.prefix_refl _⟩⟩)).elim
  subst hpre
  have nb : ∀ {b : List Char}, (∀ c ∈ b, isBlank c = true) → '\n' ∉ b := fun h hn => absurd (h _ hn) (by decide)
  have hascii : ∀ c, d = .char c → c.toNat < 128 := by
    rintro c rfl
    refine Nat.lt_of_not_le fun hge => ?_
    have hP' : Plain [] (("banner".toList ++ (b1 ++ ("motd".toList ++ (b2 ++ [c])))) ++ t5) := by simpa [Banner.Delim.text] using hP
    refine hP'.now ?_ (Or.inr (Or.inl ⟨⟨b1 ++ ("motd".toList ++ (b2 ++ [c])), by simp⟩, c, by simp, hge⟩))
    simp only [List.mem_append, not_or]
    exact ⟨by decide, nb hb1.2, by decide, nb hb2.2, by simpa [Banner.Delim.text] using hdn⟩
  have hban : Banner.banner d t5 = some (m, t6) := by
    unfold delimMsg at k6
    generalize Banner.banner d t5 = v at k6
    cases v with
    | none => cases k6
    | some x => obtain ⟨x, y⟩ := x; cases k6; rfl
  obtain ⟨rfl, hocc⟩ := banner_spec hban hascii
  obtain ⟨e, rfl, he⟩ := reads_nl _ _ _ k7
  have hne : d.text ≠ [] := by cases d <;> simp [Banner.Delim.text]
  have hm : occurs d.text m = false := by
    cases ho : occurs d.text m with
    | false => rfl
    | true =>
      obtain ⟨x, y, rfl⟩ := (occurs_iff hne).1 ho
      obtain ⟨x', rfl, rfl⟩ := hocc x y rfl
      exfalso
      obtain ⟨l, hl, u, v, rfl⟩ := infix_line (x := "^^C".toList) (by decide) []
        ("banner".toList ++ (b1 ++ ("motd".toList ++ (b2 ++ (['^', 'C'] ++ x'))))) (y ++ (['^', 'C'] ++ (e ++ r)))
      refine hP _ ?_ (Or.inr (Or.inr ⟨u, v, rfl⟩))
      simpa [Banner.Delim.text] using hl
  have hx : ∀ c ∈ d.text.head?, isBlank c = false := by
    intro c hc
    have := hmax c (by
      cases ed : d.text with
      | nil => exact absurd ed hne
      | cons z l => rw [ed] at hc; simpa using hc)
    simp [isBlank, this]
  refine ⟨bannerHead b1 b2 (d.text ++ (m ++ (d.text ++ e))), none, [], by simp [bannerHead], ?_, Or.inl rfl⟩
  have hb' := bannerText (d := d) (m := m) (e := e) hb1 hb2 hx hdn (by
    intro hc
    have := hcar hc
    cases m with
    | nil => subst hc; simp [Banner.Delim.text]
    | cons z m => simpa using this) he hm
  have := Moves.banner cur _ [] none [] [] hb' (.nil _ _)
  simpa using this

end Acltk.IosLines
