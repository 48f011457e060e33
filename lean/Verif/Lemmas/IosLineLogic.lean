import Verif.Spec.IosLinesSpec
import Verif.Model.IosText
import Verif.Lemmas.FwsmClean
/-!
# What an IOS command reads, line by line

A program logic like that of Lemmas/FwsmInv.lean, for the line machine of Spec/IosLinesSpec.lean.
-/
namespace Acltk.IosLines
open Acltk Acltk.Lookup Acltk.Peg Acltk.AclText

variable {α β : Type}

/-! ## lines and words -/

theorem linesFrom_noNl {pre c : List Char} (r : List Char) (h : '\n' ∉ c) : linesFrom pre (c ++ r) = linesFrom (pre ++ c) r := by
  induction c generalizing pre with
  | nil => simp
  | cons x c ih =>
    simp at h
    have hx : ¬ x = '\n' := fun e => h.1 e.symm
    simp only [List.cons_append, linesFrom, hx, if_false]
    rw [ih h.2]
    simp

/-- The first line continues what has been read. -/
theorem linesFrom_head (pre t : List Char) : ∃ u ls, linesFrom pre t = (pre ++ u) :: ls := by
  induction t generalizing pre with
  | nil => exact ⟨[], [], by simp [linesFrom]⟩
  | cons c t ih =>
    simp only [linesFrom]
    split
    · exact ⟨[], _, by simp; rfl⟩
    · obtain ⟨u, ls, h⟩ := ih (pre ++ [c])
      exact ⟨c :: u, ls, by rw [h]; simp⟩

/-- A text that ends a line. -/
theorem linesFrom_eol (pre u r : List Char) : ∃ ls, linesFrom pre (u ++ '\n' :: r) = ls ++ linesFrom [] r := by
  induction u generalizing pre with
  | nil => exact ⟨[pre], by simp [linesFrom]⟩
  | cons c u ih =>
    simp only [List.cons_append, linesFrom]
    split
    · obtain ⟨ls, h⟩ := ih []
      exact ⟨pre :: ls, by rw [h]; rfl⟩
    · exact ih _

theorem wordsFrom_word {w v r : List Char} (hv : ∀ c ∈ v, isBlank c = false) : wordsFrom w (v ++ r) = wordsFrom (w ++ v) r := by
  induction v generalizing w with
  | nil => simp
  | cons x v ih =>
    have hx := hv x (by simp)
    simp only [List.cons_append, wordsFrom, hx, Bool.false_eq_true, if_false]
    rw [ih (fun c hc => hv c (by simp [hc]))]
    simp

theorem wordsFrom_blanks {b r : List Char} (hb : ∀ c ∈ b, isBlank c = true) : wordsFrom [] (b ++ r) = wordsFrom [] r := by
  induction b with
  | nil => rfl
  | cons x b ih =>
    have hx := hb x (by simp)
    simp only [List.cons_append, wordsFrom, hx, if_true]
    exact ih (fun c hc => hb c (by simp [hc]))

/-- A word and blanks in front of a text. -/
theorem words_cons {w : String} {b r : List Char} (hw : w.toList ≠ []) (hw' : ∀ c ∈ w.toList, isBlank c = false) (hb : b ≠ [])
    (hb' : ∀ c ∈ b, isBlank c = true) : words (w.toList ++ (b ++ r)) = w :: words r := by
  unfold words
  rw [wordsFrom_word hw', List.nil_append]
  cases b with
  | nil => exact absurd rfl hb
  | cons x b =>
    have hx := hb' x (by simp)
    simp only [List.cons_append, wordsFrom, hx, if_true, hw, if_false]
    rw [wordsFrom_blanks (fun c hc => hb' c (by simp [hc]))]
    simp

/-- The last word. -/
theorem words_last {w : List Char} (hw' : ∀ c ∈ w, isBlank c = false) :
    words w = if w = [] then [] else [String.ofList w] := by
  unfold words
  rw [← List.append_nil w, wordsFrom_word hw']
  simp [wordsFrom]

theorem wordsFrom_first {w : List Char} (hw : w ≠ []) (r : List Char) :
    ∃ u ws, wordsFrom w r = String.ofList (w ++ u) :: ws ∧ u <+: r := by
  induction r generalizing w with
  | nil => exact ⟨[], [], by simp [wordsFrom, hw], List.nil_prefix⟩
  | cons x r ih =>
    simp only [wordsFrom]
    split
    · exact ⟨[], _, by simp; rfl, List.nil_prefix⟩
    · obtain ⟨u, ws, h1, h2⟩ := ih (w := w ++ [x]) (by simp)
      exact ⟨x :: u, ws, by rw [h1]; simp, by simpa using h2⟩

/-- The first word is a beginning of the text. -/
theorem words_first {x : Char} (hx : isBlank x = false) (r : List Char) :
    ∃ v ws, words (x :: r) = String.ofList v :: ws ∧ v <+: x :: r := by
  obtain ⟨u, ws, h1, h2⟩ := wordsFrom_first (w := [x]) (by simp) r
  refine ⟨x :: u, ws, ?_, by simpa using h2⟩
  simp only [words, wordsFrom, hx, Bool.false_eq_true, if_false, List.nil_append]
  simpa using h1

/-! ## lines that are nothing -/

/-- Neither is a beginning of the other. -/
def Apart (a b : List Char) : Prop := a.isPrefixOf b = false ∧ b.isPrefixOf a = false

instance (a b : List Char) : Decidable (Apart a b) := inferInstanceAs (Decidable (_ ∧ _))

theorem Apart.ne {a b v q : List Char} (h : Apart a b) (hv : v <+: b ++ q) : v ≠ a := by
  rintro rfl
  rcases List.prefix_or_prefix_of_prefix hv (List.prefix_append b q) with p | p
  · have := List.isPrefixOf_iff_prefix.2 p; rw [h.1] at this; cases this
  · have := List.isPrefixOf_iff_prefix.2 p; rw [h.2] at this; cases this

theorem opens_head {x : Char} {l : List Char} (hx : x ≠ 'b') : opens (x :: l) = none := by
  have : after "banner" (x :: l) = none := by
    unfold after
    rw [if_neg]
    intro h
    rw [List.isPrefixOf_iff_prefix] at h
    obtain ⟨u, hu⟩ := h
    have : 'b' :: ("anner".toList ++ u) = x :: l := hu
    cases this
    exact hx rfl
  unfold opens
  rw [this]

theorem opens_nil : opens [] = none := by decide

theorem opens_apart {s q : List Char} (h : Apart "banner".toList s) : opens (s ++ q) = none := by
  have : after "banner" (s ++ q) = none := by
    unfold after
    rw [if_neg]
    intro h'
    rw [List.isPrefixOf_iff_prefix] at h'
    exact h.ne h' rfl
  unfold opens
  rw [this]

/-- Whatever follows, the line opens no list and no banner, is no rule and ends the list that is open. -/
def Dead (cur : Option String) (p : List Char) : Prop := ∀ q, '\n' ∉ q → step cur (p ++ q) = (none, []) ∧ opens (p ++ q) = none

theorem Dead.append {cur : Option String} {p q : List Char} (h : Dead cur p) (hq : '\n' ∉ q) : Dead cur (p ++ q) := by
  intro r hr
  rw [List.append_assoc]
  exact h _ (by simp [hq, hr])

theorem Dead.line {cur : Option String} {p : List Char} (h : Dead cur p) : step cur p = (none, []) := by
  simpa using (h [] (by simp)).1

theorem Dead.opens {cur : Option String} {p : List Char} (h : Dead cur p) : opens p = none := by
  simpa using (h [] (by simp)).2

theorem dead_indented {p : List Char} : Dead none (' ' :: p) := by
  intro q _
  exact ⟨rfl, opens_head (by decide)⟩

/-- A keyword that is not the beginning of a list. -/
def Foreign (s : List Char) : Prop :=
  (∃ x r, s = x :: r ∧ isBlank x = false) ∧ Apart "access-list".toList s ∧ Apart "ip".toList s ∧ Apart "banner".toList s

instance (s : List Char) : Decidable (Foreign s) :=
  match s with
  | [] => .isFalse (by rintro ⟨⟨x, r, h, -⟩, -⟩; cases h)
  | x :: r =>
    if h : isBlank x = false ∧ Apart "access-list".toList (x :: r) ∧ Apart "ip".toList (x :: r) ∧ Apart "banner".toList (x :: r) then
      .isTrue ⟨⟨x, r, rfl, h.1⟩, h.2⟩
    else .isFalse (by rintro ⟨⟨y, r', h1, h2⟩, h3⟩; cases h1; exact h ⟨h2, h3⟩)

theorem step_other (cur : Option String) {x : Char} {r : List Char} (hx : isBlank x = false) :
    step cur (x :: r) = (opened (words (x :: r)), numbered (words (x :: r))) := by
  unfold step
  split
  · rename_i h
    cases h
    exact absurd hx (by decide)
  · rfl

theorem opened_none {v : String} {ws : List String} (h1 : v ≠ "ip") (h2 : v ≠ "ipv6") : opened (v :: ws) = none := by
  unfold opened
  split
  · rename_i h; cases h; exact absurd rfl h1
  · rename_i h; cases h; exact absurd rfl h2
  · rfl

theorem numbered_nil {v : String} {ws : List String} (h1 : v ≠ "access-list") : numbered (v :: ws) = [] := by
  unfold numbered
  split
  · rename_i h; cases h; exact absurd rfl h1
  · rfl

theorem ofList_ne {v : List Char} {s : String} (h : v ≠ s.toList) : String.ofList v ≠ s := by
  rintro rfl
  simp at h

theorem dead_foreign {s : List Char} (h : Foreign s) (cur : Option String) : Dead cur s := by
  obtain ⟨⟨x, r, rfl, hx⟩, h1, h2, h3⟩ := h
  intro q _
  refine ⟨?_, opens_apart h3⟩
  obtain ⟨v, ws, e, hv⟩ := words_first hx (r ++ q)
  rw [List.cons_append, step_other cur hx, e]
  have hv' : v <+: (x :: r) ++ q := by simpa using hv
  have n1 := h1.ne hv'
  have n2 := h2.ne hv'
  have n3 : v ≠ "ipv6".toList := by
    rintro rfl
    exact h2.ne (v := "ip".toList) ((List.prefix_append "ip".toList "v6".toList).trans hv') rfl
  rw [opened_none (ofList_ne n2) (ofList_ne n3), numbered_nil (ofList_ne n1)]

/-- `ip` or `ipv6` and a keyword that is not `access-list`. -/
theorem dead_second {k : String} (hk : k = "ip" ∨ k = "ipv6") {b s : List Char} (hb : b ≠ []) (hb' : ∀ c ∈ b, isBlank c = true)
    (hs : ∃ x r, s = x :: r ∧ isBlank x = false) (ha : Apart "access-list".toList s) (cur : Option String) :
    Dead cur (k.toList ++ b ++ s) := by
  obtain ⟨x, r, rfl, hx⟩ := hs
  intro q _
  refine ⟨?_, by rcases hk with rfl | rfl <;> exact opens_head (by decide)⟩
  have e1 : k.toList ++ b ++ (x :: r) ++ q = k.toList ++ (b ++ (x :: (r ++ q))) := by simp
  obtain ⟨y, l, hy, hyb⟩ : ∃ y l, k.toList = y :: l ∧ isBlank y = false := by
    rcases hk with rfl | rfl
    · exact ⟨'i', ['p'], by decide, by decide⟩
    · exact ⟨'i', "pv6".toList, by decide, by decide⟩
  have e2 : words (k.toList ++ (b ++ (x :: (r ++ q)))) = k :: words (x :: (r ++ q)) := by
    refine words_cons ?_ ?_ hb hb'
    · rw [hy]; simp
    · rcases hk with rfl | rfl <;> decide
  obtain ⟨v, ws, e, hv⟩ := words_first hx (r ++ q)
  have hv' : v <+: (x :: r) ++ q := by simpa using hv
  have n1 := ha.ne hv'
  have e3 : k.toList ++ (b ++ (x :: (r ++ q))) = y :: (l ++ (b ++ (x :: (r ++ q)))) := by rw [hy]; rfl
  rw [e1, e3, step_other cur hyb, ← e3, e2, e]
  have n2 := ofList_ne n1
  have o : opened (k :: String.ofList v :: ws) = none := by
    unfold opened
    split
    · rename_i h; simp only [List.cons.injEq] at h; exact absurd h.2.1 n2
    · rename_i h; simp only [List.cons.injEq] at h; exact absurd h.2.1 n2
    · rfl
  rw [o, numbered_nil]
  rcases hk with rfl | rfl <;> decide

/-! ## reading -/

/-- The text of a banner, with the end of the line. -/
def BannerText (b : List Char) : Prop :=
  (∃ u, b = u ++ ['\n']) ∧ ∀ cur r, IosLines.rules cur (linesFrom [] (b ++ r)) = IosLines.rules none (linesFrom [] r)

/-- From `pre` of a line in the list `cur`, reading the text leads to `pre'` of a line in the list `cur'`, past the rules of
the last argument. -/
inductive Moves : Option String → List Char → List Char → Option String → List Char → List (String × String) → Prop
  | nil (cur pre) : Moves cur pre [] cur pre []
  | chr (cur pre x c cur' pre' o) : x ≠ '\n' → Moves cur (pre ++ [x]) c cur' pre' o → Moves cur pre (x :: c) cur' pre' o
  | nl (cur pre c cur' pre' o) : opens pre = none → Moves (step cur pre).1 [] c cur' pre' o →
      Moves cur pre ('\n' :: c) cur' pre' ((step cur pre).2 ++ o)
  | banner (cur b c cur' pre' o) : BannerText b → Moves none [] c cur' pre' o → Moves cur [] (b ++ c) cur' pre' o

theorem Moves.append {cur cur' cur'' : Option String} {p c p' d p'' : List Char} {o o' : List (String × String)}
    (h : Moves cur p c cur' p' o) (h2 : Moves cur' p' d cur'' p'' o') : Moves cur p (c ++ d) cur'' p'' (o ++ o') := by
  induction h with
  | nil => exact h2
  | chr _ _ _ _ _ _ _ hx _ ih => exact .chr _ _ _ _ _ _ _ hx (ih h2)
  | nl _ _ _ _ _ _ ho _ ih => rw [List.append_assoc]; exact .nl _ _ _ _ _ _ ho (ih h2)
  | banner _ _ _ _ _ _ hb _ ih => rw [List.append_assoc]; exact .banner _ _ _ _ _ _ hb (ih h2)

theorem Moves.line {cur : Option String} {p c : List Char} (h : '\n' ∉ c) : Moves cur p c cur (p ++ c) [] := by
  induction c generalizing p with
  | nil => simpa using Moves.nil cur p
  | cons x c ih =>
    simp at h
    refine .chr _ _ _ _ _ _ _ (fun e => h.1 e.symm) ?_
    have := ih (p := p ++ [x]) h.2
    simpa using this

theorem Moves.noNl {cur cur' : Option String} {p c p' : List Char} {o : List (String × String)} (h : Moves cur p c cur' p' o)
    (hp : '\n' ∉ p) : '\n' ∉ p' := by
  induction h with
  | nil => exact hp
  | chr _ _ x _ _ _ _ hx _ ih =>
    apply ih
    simp only [List.mem_append, List.mem_singleton, not_or]
    exact ⟨hp, fun e => hx e.symm⟩
  | nl _ _ _ _ _ _ _ _ ih => exact ih (by simp)
  | banner _ _ _ _ _ _ _ _ ih => exact ih (by simp)

/-- What the specification says of the text is what it says of the rest, behind the rules passed. -/
theorem Moves.rules {cur cur' : Option String} {p c p' : List Char} {o : List (String × String)} (h : Moves cur p c cur' p' o)
    (r : List Char) : rules cur (linesFrom p (c ++ r)) = o ++ rules cur' (linesFrom p' r) := by
  induction h with
  | nil => rfl
  | chr _ _ x _ _ _ _ hx _ ih =>
    rw [List.cons_append, linesFrom, if_neg hx]
    exact ih
  | nl cur p _ _ _ _ ho _ ih =>
    rw [List.cons_append, linesFrom, if_pos rfl, List.append_assoc, ← ih]
    unfold IosLines.rules
    rw [rulesIn]
    simp only [ho]
  | banner _ _ _ _ _ _ hb _ ih =>
    rw [List.append_assoc, hb.2, ih]

theorem Moves.lines {cur cur' : Option String} {p c p' : List Char} {o : List (String × String)} (h : Moves cur p c cur' p' o)
    (r : List Char) : ∃ ls, linesFrom p (c ++ r) = ls ++ linesFrom p' r := by
  induction h with
  | nil => exact ⟨[], rfl⟩
  | chr _ _ x _ _ _ _ hx _ ih =>
    rw [List.cons_append, linesFrom, if_neg hx]
    exact ih
  | nl _ p _ _ _ _ _ _ ih =>
    obtain ⟨ls, h⟩ := ih
    exact ⟨p :: ls, by rw [List.cons_append, linesFrom, if_pos rfl, h]; rfl⟩
  | banner _ b _ _ _ _ hb _ ih =>
    obtain ⟨ls, h⟩ := ih
    obtain ⟨⟨u, rfl⟩, -⟩ := hb
    obtain ⟨ms, e⟩ := linesFrom_eol [] u (_ ++ r)
    exact ⟨ms ++ ls, by rw [List.append_assoc, List.append_assoc, List.singleton_append, e, h, List.append_assoc]⟩

/-- No line that comes, nor the present one, is odd. -/
def Plain (pre t : List Char) : Prop := ∀ l ∈ linesFrom pre t, ¬ Odd l

theorem Moves.plain {cur cur' : Option String} {p c p' r : List Char} {o : List (String × String)} (h : Moves cur p c cur' p' o)
    (hp : Plain p (c ++ r)) : Plain p' r := by
  obtain ⟨ls, e⟩ := h.lines r
  intro l hl
  exact hp l (by rw [e]; simp [hl])

theorem Odd.append {l : List Char} (h : Odd l) (u : List Char) : Odd (l ++ u) := by
  rcases h with h | ⟨h, c, hc, hc'⟩ | ⟨a, b, rfl⟩
  · obtain ⟨b, r, rfl, hb, h⟩ := h
    refine Or.inl ⟨b, r ++ u, by simp, hb, ?_⟩
    have mono : ∀ {x : List Char}, x <+: r → x <+: r ++ u := fun h => h.trans (List.prefix_append _ _)
    rcases h with ⟨h0, h⟩ | ⟨w, h1, h2, h3⟩ | ⟨h0, h | ⟨k, w, hk, h1, h2, h3⟩⟩
    · exact Or.inl ⟨h0, mono h⟩
    · exact Or.inr (Or.inl ⟨w, h1, h2, mono h3⟩)
    · exact Or.inr (Or.inr ⟨h0, Or.inl (mono h)⟩)
    · exact Or.inr (Or.inr ⟨h0, Or.inr ⟨k, w, hk, h1, h2, mono h3⟩⟩)
  · exact Or.inr (Or.inl ⟨h.trans (List.prefix_append _ _), c, by simp [hc], hc'⟩)
  · exact Or.inr (Or.inr ⟨a, b ++ u, by simp⟩)

/-- The present line is not odd. -/
theorem Plain.now {p c r : List Char} (h : Plain p (c ++ r)) (hc : '\n' ∉ c) : ¬ Odd (p ++ c) := by
  intro ho
  rw [Plain, linesFrom_noNl r hc] at h
  obtain ⟨u, ls, e⟩ := linesFrom_head (p ++ c) r
  exact h _ (by rw [e]; simp) (ho.append u)

/-! ## the logic -/

/-- An assertion about the list, what has been read of the current line, and what comes. -/
abbrev As := Option String → List Char → Text → Prop

/-- From a position with `A`, whenever the rule accepts, no rule line has ended and `B` holds. -/
def T (A : As) (p : P α) (B : As) : Prop :=
  ∀ cur pre t a r, '\n' ∉ pre → Plain pre t → A cur pre t → p t = .ok a r →
    ∃ c cur' pre', t = c ++ r ∧ Moves cur pre c cur' pre' [] ∧ B cur' pre' r

/-- At the beginning of a line that belongs to no list. -/
def S0 : As := fun cur p _ => cur = none ∧ p = []
/-- In a line that is nothing. -/
def SD : As := fun cur p _ => Dead cur p
/-- At the beginning, or in such a line. -/
def SX : As := fun cur p _ => p = [] ∨ Dead cur p
/-- Behind blanks only. -/
def SB : As := fun cur p _ => cur = none ∧ ∀ c ∈ p, c = ' '
/-- Behind at least one blank. -/
def SC : As := fun cur p _ => cur = none ∧ p ≠ [] ∧ ∀ c ∈ p, c = ' '
/-- In such a line, and no letter comes. -/
def SN : As := fun cur p t => Dead cur p ∧ ∀ c ∈ t.head?, c.isAlpha = false
/-- Between two commands. -/
def SE : As := fun cur p t => p = [] ∨ SN cur p t ∨ SC cur p t

theorem SC.dead {cur : Option String} {p : List Char} {t : Text} (h : SC cur p t) : Dead cur p := by
  obtain ⟨rfl, h1, h2⟩ := h
  cases p with
  | nil => exact absurd rfl h1
  | cons x p =>
    have := h2 x (by simp)
    subst this
    exact dead_indented

theorem SE.sx {cur : Option String} {p : List Char} {t : Text} (h : SE cur p t) : SX cur p t := by
  rcases h with h | h | h
  · exact Or.inl h
  · exact Or.inr h.1
  · exact Or.inr h.dead

theorem SB.se {cur : Option String} {p : List Char} {t : Text} (h : SB cur p t) : SE cur p t := by
  by_cases e : p = []
  · exact Or.inl e
  · exact Or.inr (Or.inr ⟨h.1, e, h.2⟩)

theorem S0.se {cur : Option String} {p : List Char} {t : Text} (h : S0 cur p t) : SE cur p t := Or.inl h.2

theorem S0.sb {cur : Option String} {p : List Char} {t : Text} (h : S0 cur p t) : SB cur p t :=
  ⟨h.1, by rw [h.2]; simp⟩

variable {A B C D : As}

theorem T.pre {p : P α} (h : T B p C) (hi : ∀ c p t, A c p t → B c p t) : T A p C :=
  fun cur pre t a r hn hP hA hp => h cur pre t a r hn hP (hi _ _ _ hA) hp

theorem T.post {p : P α} (h : T A p B) (hi : ∀ c p t, B c p t → C c p t) : T A p C := by
  intro cur pre t a r hn hP hA hp
  obtain ⟨c, cur', q, h1, h2, h3⟩ := h cur pre t a r hn hP hA hp
  exact ⟨c, cur', q, h1, h2, hi _ _ _ h3⟩

theorem T.bind {p : P α} {f : α → P β} (h : T A p B) (hf : ∀ a, T B (f a) C) : T A (p >>= f) C := by
  intro cur pre t b r hn hP hA hb
  obtain ⟨a, s, h1, h2⟩ := bind_inv hb
  obtain ⟨c, cur', q, rfl, hq, hB⟩ := h _ _ _ _ _ hn hP hA h1
  obtain ⟨d, cur'', q2, rfl, hq2, hC⟩ := hf a _ _ _ _ _ (hq.noNl hn) (hq.plain hP) hB h2
  exact ⟨c ++ d, cur'', q2, by simp, hq.append hq2, hC⟩

theorem T.empty {p : P α} (h : Reads p (fun c _ => c = [])) : T A p A := by
  intro cur pre t b r hn hP hA hb
  obtain ⟨c, rfl, rfl⟩ := h _ _ _ hb
  exact ⟨[], cur, pre, rfl, .nil _ _, hA⟩

theorem T.pure (a : α) : T A (pure a : P α) A := T.empty ((reads_pure a).mono (fun _ _ h => h.1))

theorem T.act (x : Py α) : T A (act x) A := T.empty ((reads_act x).mono (fun _ _ h => h.1))

theorem T.alt {p q : P α} (hp : T A p B) (hq : T A q B) : T A (alt p q) B := by
  intro cur pre t a r hn hP hA h
  rcases alt_inv h with h | h
  · exact hp _ _ _ _ _ hn hP hA h
  · exact hq _ _ _ _ _ hn hP hA h

theorem T.failP : T A (failP : P α) B := by
  intro cur pre t a r hn hP hA h
  cases h

theorem T.alts_nil : T A (alts ([] : List (P α))) B := T.failP

theorem T.alts_cons {p : P α} {l : List (P α)} (hp : T A p B) (hl : T A (alts l) B) : T A (alts (p :: l)) B :=
  T.alt hp hl

theorem T.alts_map {l : List (P α)} (h : ∀ p ∈ l, T A p B) : T A (alts l) B := by
  induction l with
  | nil => exact T.alts_nil
  | cons p l ih => exact T.alts_cons (h p (by simp)) (ih fun q hq => h q (by simp [hq]))

theorem T.opt {p : P α} (hp : T A p B) : T A (opt p) (fun c q t => A c q t ∨ B c q t) := by
  intro cur pre t a r hn hP hA h
  unfold Peg.opt at h
  generalize hv : p t = v at h
  cases v with
  | ok b s =>
    cases h
    obtain ⟨c, cur', q, h1, h2, h3⟩ := hp _ _ _ _ _ hn hP hA hv
    exact ⟨c, cur', q, h1, h2, Or.inr h3⟩
  | fail => cases h; exact ⟨[], cur, pre, rfl, .nil _ _, Or.inl hA⟩
  | raise e => cases h

/-- An optional part that leads back. -/
theorem T.opt' {p : P α} (hp : T A p A) : T A (Peg.opt p) A := (T.opt hp).post (fun _ _ _ h => h.elim id id)

theorem T.many {p : P α} (hp : T A p A) : T A (many p) A := by
  intro cur pre t
  generalize hlen : t.length = n
  induction n using Nat.strongRecOn generalizing t pre cur with
  | _ n ih =>
    intro a r hn hP hA hm
    rw [Peg.many] at hm
    generalize hv : p t = v at hm
    cases v with
    | fail => cases hm; exact ⟨[], cur, pre, rfl, .nil _ _, hA⟩
    | raise e => cases hm
    | ok b s =>
      simp only at hm
      split at hm
      · rename_i hl
        generalize hw : Peg.many p s = w at hm
        cases w with
        | fail => cases hm
        | raise e => cases hm
        | ok l u =>
          cases hm
          obtain ⟨c, cur', q, rfl, h2, h3⟩ := hp _ _ _ _ _ hn hP hA hv
          obtain ⟨d, cur'', q2, rfl, h4, h5⟩ := ih s.length (by omega) _ _ s rfl _ _ (h2.noNl hn) (h2.plain hP) h3 hw
          exact ⟨c ++ d, cur'', q2, by simp, h2.append h4, h5⟩
      · cases hm; exact ⟨[], cur, pre, rfl, .nil _ _, hA⟩

theorem T.inl {p : P α} (h : InLine p) : T SD p SD := by
  intro cur pre t a r hn hP hA hp
  obtain ⟨c, rfl, hc⟩ := h _ _ _ hp
  exact ⟨c, cur, pre ++ c, rfl, .line hc, hA.append hc⟩

theorem T.tok {g : Guard} {s : String} (hs : Foreign s.toList) (hn : '\n' ∉ s.toList) : T SX (tok g s) SD := by
  intro cur pre t a r hp hP hA h
  obtain ⟨c, rfl, -, rfl⟩ := reads_tok _ _ _ _ _ h
  refine ⟨s.toList, cur, pre ++ s.toList, rfl, .line hn, ?_⟩
  rcases hA with rfl | hA
  · exact dead_foreign hs cur
  · exact hA.append hn

theorem step_nil (cur : Option String) : step cur [] = (none, []) := rfl
theorem step_cr (cur : Option String) : step cur ['\r'] = (none, []) := rfl

theorem T.nl : T SX nl S0 := by
  intro cur pre t a r hn hP hA h
  obtain ⟨c, rfl, hc⟩ := reads_nl _ _ _ h
  have h1 : step cur pre = (none, []) ∧ step cur (pre ++ ['\r']) = (none, []) := by
    rcases hA with rfl | hA
    · exact ⟨step_nil _, step_cr _⟩
    · exact ⟨hA.line, (hA.append (by decide)).line⟩
  have h2 : opens pre = none ∧ opens (pre ++ ['\r']) = none := by
    rcases hA with rfl | hA
    · exact ⟨opens_nil, opens_head (by decide)⟩
    · exact ⟨hA.opens, (hA.append (by decide)).opens⟩
  refine ⟨c, none, [], rfl, ?_, rfl, rfl⟩
  rcases hc with rfl | rfl
  · have := Moves.nl cur pre [] none [] [] h2.1 (by rw [h1.1]; exact .nil _ _)
    rw [h1.1] at this
    exact this
  · have := Moves.nl cur (pre ++ ['\r']) [] none [] [] h2.2 (by rw [h1.2]; exact .nil _ _)
    rw [h1.2] at this
    exact .chr _ _ _ _ _ _ _ (by decide) this

theorem T.nl' : T SD Peg.nl S0 := T.nl.pre (fun _ _ _ h => Or.inr h)

theorem T.sp : T SB sp SC := by
  intro cur pre t a r hn hP hA h
  obtain ⟨c, rfl, rfl⟩ := reads_sp _ _ _ h
  refine ⟨[' '], cur, pre ++ [' '], rfl, .line (by decide), hA.1, by simp, ?_⟩
  intro c hc
  rcases List.mem_append.1 hc with h | h
  · exact hA.2 c h
  · simpa using h

theorem T.sp0 : T S0 Peg.sp SD := (T.sp.pre (fun _ _ _ h => h.sb)).post (fun _ _ _ h => h.dead)

/-! ## one line -/

/-- The rule reads up to the end of the line, and no other line. -/
def OL (p : P α) : Prop := T SD p S0

theorem OL.bind {p : P α} {f : α → P β} (h : InLine p) (hf : ∀ a, OL (f a)) : OL (p >>= f) := T.bind (T.inl h) hf

theorem OL.nl : OL nl := T.nl'

open Acltk.FwsmText (Em)

theorem OL.nlBind {f : Unit → P β} (hf : ∀ a, Em (f a)) : OL (Peg.nl >>= f) := T.bind T.nl' (fun a => T.empty (hf a))

theorem OL.alts_cons {p : P α} {l : List (P α)} (hp : OL p) (hl : OL (alts l)) : OL (alts (p :: l)) := T.alt hp hl
theorem OL.alts_nil : OL (alts ([] : List (P α))) := T.failP

/-- Proves that a rule stays in its line. -/
macro "staysin" : tactic => `(tactic| repeat' first
  | with_reducible exact inLine_ws | with_reducible exact inLine_ip4 | with_reducible exact inLine_ip6 | with_reducible exact inLine_slashP | with_reducible exact inLine_intP | with_reducible exact inLine_identifier
  | with_reducible exact inLine_stringP | with_reducible exact FwsmText.inl_toeol | with_reducible exact FwsmText.inl_objName | with_reducible exact FwsmText.inl_restOfLine | with_reducible exact FwsmText.inl_sp
  | with_reducible exact inLine_pure _ | with_reducible exact inLine_act _ | with_reducible exact inLine_ahead _ | with_reducible exact inLine_port _ | with_reducible exact inLine_icmpType _
  | with_reducible exact FwsmText.inl_alts_nil | with_reducible assumption
  | (with_reducible apply inLine_oneOf; decide +kernel) | (with_reducible apply inLine_tok; decide +kernel) | (with_reducible apply FwsmText.inl_chr; decide)
  | with_reducible exact inLine_refer (by assumption)
  | with_reducible apply InLine.opt | with_reducible apply InLine.many | with_reducible apply FwsmText.inl_many1 | with_reducible apply FwsmText.inl_alt | with_reducible apply FwsmText.inl_alts_cons | with_reducible apply InLine.bind | apply InLine.bind
  | intro _)

/-- Proves that a rule reads to the end of its line. -/
macro "toend" : tactic => `(tactic| repeat' first
  | with_reducible exact OL.nl
  | with_reducible exact FwsmText.Em.pure _ | with_reducible exact FwsmText.Em.act _
  | with_reducible exact OL.alts_nil
  | (with_reducible apply OL.nlBind)
  | (with_reducible refine OL.bind (by staysin; done) ?_)
  | (refine OL.bind (by staysin; done) ?_)
  | with_reducible apply OL.alts_cons
  | with_reducible apply FwsmText.Em.bind
  | intro _)

theorem OL.then {p : P α} {f : α → P β} (h : OL p) (hf : ∀ a, Em (f a)) : OL (p >>= f) :=
  T.bind h fun a => T.empty (hf a)

theorem T.keyword {g : Guard} {w : String} {f : String → P β} {B : As} (hs : Foreign w.toList) (hn : '\n' ∉ w.toList)
    (hf : ∀ a, T SD (f a) B) : T SX (Peg.tok g w >>= f) B := T.bind (T.tok hs hn) hf

theorem T.keywordOL {g : Guard} {w : String} {f : String → P β} (hs : Foreign w.toList) (hn : '\n' ∉ w.toList)
    (hf : ∀ a, OL (f a)) : T SX (Peg.tok g w >>= f) S0 := T.bind (T.tok hs hn) hf

/-- Indented lines of one kind. -/
theorem T.indented {p : P α} (h : T SC p SB) : T SB (FwsmText.indented p) SB := T.many (T.bind T.sp fun _ => h)

theorem T.ofOL {p : P α} (h : OL p) : T SC p SB := (T.pre h (fun _ _ _ h => h.dead)).post (fun _ _ _ h => h.sb)

end Acltk.IosLines
