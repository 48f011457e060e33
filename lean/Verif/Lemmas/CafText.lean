import Verif.Model.CafText
import Verif.Spec.CafTextSpec
import Verif.Lemmas.PegAddr
import Verif.Props.Caf
/-!
# Reading CAF texts: words
-/
namespace Acltk.CafText
open Acltk Acltk.Lookup Acltk.Peg Acltk.Caf

variable {α β : Type} {g : Guard}

theorem dropWhile_spaces {b t : List Char} (hb : ∀ c ∈ b, isSpace c = true) : (b ++ t).dropWhile isSpace = t.dropWhile isSpace := by
  induction b with
  | nil => rfl
  | cons c b ih =>
    rw [List.cons_append, List.dropWhile_cons_of_pos (hb c (by simp))]
    exact ih (fun d hd => hb d (by simp [hd]))

theorem Written.nil_drop {t : List Char} (h : Written [] t) : t.dropWhile isSpace = [] := by
  cases h with
  | nil b hb => simpa using dropWhile_spaces (t := []) hb

theorem Written.cons_drop {w : Word} {ws : List Word} {t : List Char} (h : Written (w :: ws) t) :
    ∃ t', t.dropWhile isSpace = w.text ++ t' ∧ Written ws t' ∧ Apart w t' ∧ Proper w ∧ t'.length + 1 ≤ t.length := by
  cases h with
  | cons b w ws t' hb hw hp ha =>
    refine ⟨t', ?_, hw, ha, hp, ?_⟩
    · obtain ⟨c, u, e, hc⟩ := hp
      rw [dropWhile_spaces hb, e, List.cons_append, List.dropWhile_cons_of_neg (by simp [hc])]
    · obtain ⟨c, u, e, hc⟩ := hp
      rw [e]; simp; omega

theorem Written.drop {ws : List Word} {t : List Char} (h : Written ws t) :
    Written ws (t.dropWhile isSpace) ∧ (t.dropWhile isSpace).length ≤ t.length := by
  refine ⟨?_, (List.dropWhile_suffix _).length_le⟩
  cases ws with
  | nil => rw [h.nil_drop]; exact .nil [] (by simp)
  | cons w ws =>
    obtain ⟨t', e, hw, ha, hp, -⟩ := h.cons_drop
    rw [e]
    exact .cons [] w ws t' (by simp) hw hp ha

/-- The rule reads these words in front of the others, with this outcome. -/
def Rd (p : P α) (v : Py α) (ws more : List Word) : Prop :=
  ∀ t, Written (ws ++ more) t →
    match v with
    | .ok a => ∃ t', p t = .ok a t' ∧ Written more t' ∧ t'.length + ws.length ≤ t.length
    | .error e => p t = .raise e

/-- The rule fails in front of these words. -/
def Fl (p : P α) (ws : List Word) : Prop := ∀ t, Written ws t → p t = .fail

theorem Rd.skip {p : P α} {v : Py α} {ws more : List Word} (h : Rd p v ws more) : Rd (skip p) v ws more := by
  intro t ht
  obtain ⟨h1, h2⟩ := ht.drop
  have := h _ h1
  revert this
  cases v with
  | error e => exact id
  | ok a =>
    rintro ⟨t', e, hw, hl⟩
    exact ⟨t', e, hw, by omega⟩

theorem Fl.skip {p : P α} {ws : List Word} (h : Fl p ws) : Fl (skip p) ws := fun t ht => h _ ht.drop.1

theorem Rd.bind {p : P α} {f : α → P β} {a : α} {v : Py β} {ws vs more : List Word} (h : Rd p (.ok a) ws (vs ++ more))
    (h2 : Rd (f a) v vs more) : Rd (p >>= f) v (ws ++ vs) more := by
  intro t ht
  obtain ⟨t', e, hw, hl⟩ := h t (by simpa using ht)
  rw [bind_ok e]
  have := h2 t' hw
  revert this
  cases v with
  | error e => exact id
  | ok a =>
    rintro ⟨t'', e, hw, hl⟩
    exact ⟨t'', e, hw, by simp; omega⟩

theorem Rd.bindRaise {p : P α} {f : α → P β} {e : PyErr} {ws vs more : List Word} (h : Rd p (.error e) ws (vs ++ more)) :
    Rd (p >>= f) (.error e) (ws ++ vs) more := by
  intro t ht
  exact bind_raise (h t (by simpa using ht))

theorem Fl.bind {p : P α} {f : α → P β} {ws : List Word} (h : Fl p ws) : Fl (p >>= f) ws := fun t ht => bind_fail (h t ht)

theorem Rd.pure (a : α) (more : List Word) : Rd (Pure.pure a : P α) (.ok a) [] more :=
  fun t ht => ⟨t, rfl, ht, by simp⟩

theorem Rd.act (v : Py α) (more : List Word) : Rd (act v) v [] more := by
  intro t ht
  cases v with
  | ok a => exact ⟨t, rfl, ht, by simp⟩
  | error e => rfl

theorem Rd.altOk {p q : P α} {v : Py α} {ws more : List Word} (h : Rd p v ws more) : Rd (alt p q) v ws more := by
  intro t ht
  have := h t ht
  revert this
  cases v with
  | error e => intro h; show alt p q t = _; unfold alt; rw [h]
  | ok a =>
    rintro ⟨t', e, hw, hl⟩
    exact ⟨t', alt_ok e, hw, hl⟩

theorem Rd.altFail {p q : P α} {v : Py α} {ws more : List Word} (h : Fl p (ws ++ more)) (h2 : Rd q v ws more) :
    Rd (alt p q) v ws more := by
  intro t ht
  have := h2 t ht
  rw [alt_fail (h t ht)]
  exact this

theorem Fl.alt {p q : P α} {ws : List Word} (h : Fl p ws) (h2 : Fl q ws) : Fl (alt p q) ws := by
  intro t ht
  rw [alt_fail (h t ht)]; exact h2 t ht

theorem Fl.altsNil {ws : List Word} : Fl (alts ([] : List (P α))) ws := fun _ _ => rfl

theorem Rd.opt {p : P α} {a : α} {ws more : List Word} (h : Rd p (.ok a) ws more) : Rd (Peg.opt p) (.ok (some a)) ws more := by
  intro t ht
  obtain ⟨t', e, hw, hl⟩ := h t ht
  exact ⟨t', opt_ok e, hw, hl⟩

theorem Rd.optNone {p : P α} {more : List Word} (h : Fl p more) : Rd (Peg.opt p) (.ok none) [] more := by
  intro t ht
  exact ⟨t, opt_fail (h t ht), ht, by simp⟩

theorem Rd.manyNil {p : P α} {more : List Word} (h : Fl p more) : Rd (many p) (.ok []) [] more := by
  intro t ht
  exact ⟨t, many_fail (h t ht), ht, by simp⟩

theorem Rd.manyCons {p : P α} {a : α} {l : List α} {ws vs more : List Word} (h : Rd p (.ok a) ws (vs ++ more)) (hne : ws ≠ [])
    (h2 : Rd (many p) (.ok l) vs more) : Rd (many p) (.ok (a :: l)) (ws ++ vs) more := by
  intro t ht
  obtain ⟨t', e, hw, hl⟩ := h t (by simpa using ht)
  obtain ⟨t'', e', hw', hl'⟩ := h2 t' hw
  have : 0 < ws.length := List.length_pos_iff.2 hne
  exact ⟨t'', many_ok e (by omega) e', hw', by simp; omega⟩

theorem Rd.manyRaise {p : P α} {a : α} {x : PyErr} {ws vs more : List Word} (h : Rd p (.ok a) ws (vs ++ more)) (hne : ws ≠ [])
    (h2 : Rd (many p) (.error x) vs more) : Rd (many p) (.error x) (ws ++ vs) more := by
  intro t ht
  obtain ⟨t', e, hw, hl⟩ := h t (by simpa using ht)
  have e' := h2 t' hw
  have : 0 < ws.length := List.length_pos_iff.2 hne
  show many p t = _
  rw [many, e]
  simp only
  rw [if_pos (by omega), e']

theorem Rd.manyRaiseNow {p : P α} {x : PyErr} {ws more : List Word} (h : Rd p (.error x) ws more) :
    Rd (many p) (.error x) ws more := by
  intro t ht
  have e := h t ht
  show many p t = _
  rw [many, e]

theorem Rd.many1 {p : P α} {a : α} {l : List α} {ws vs more : List Word} (h : Rd p (.ok a) ws (vs ++ more))
    (h2 : Rd (many p) (.ok l) vs more) : Rd (many1 p) (.ok (a :: l)) (ws ++ vs) more := by
  intro t ht
  obtain ⟨t', e, hw, hl⟩ := h t (by simpa using ht)
  obtain ⟨t'', e', hw', hl'⟩ := h2 t' hw
  exact ⟨t'', many1_ok e e', hw', by simp; omega⟩

theorem Rd.many1Raise {p : P α} {x : PyErr} {ws more : List Word} (h : Rd p (.error x) ws more) :
    Rd (Peg.many1 p) (.error x) ws more := by
  intro t ht
  have e := h t ht
  show Peg.many1 p t = _
  unfold Peg.many1
  rw [e]

theorem Fl.many1 {p : P α} {ws : List Word} (h : Fl p ws) : Fl (many1 p) ws := fun t ht => many1_fail (h t ht)

/-! ## keywords -/

/-- The keywords of the language. -/
def keys : List String := ["ip", "src", "dst", "id", "union", "intersect", "except", "(", ")"]

theorem apart_not_alnum {w : Word} {t : List Char} (h : Apart w t) (hw : ∀ b, w ≠ .comment b) (h1 : w ≠ .key "(") (h2 : w ≠ .key ")") :
    ∀ c ∈ t.head?, isSpace c = true ∨ c = '(' ∨ c = ')' ∨ (c = '/' ∧ (∃ u, t = '/' :: '*' :: u) ∧ ∀ x, w ≠ .id x) := by
  unfold Apart at h
  split at h
  · exact absurd rfl (hw _)
  · exact absurd rfl h1
  · exact absurd rfl h2
  · exact h

theorem space_not_alnum {c : Char} (h : isSpace c = true) : c.isAlphanum = false := by
  unfold isSpace at h
  simp only [Bool.or_eq_true, beq_iff_eq, Bool.and_eq_true, decide_eq_true_eq] at h
  have hc : c.toNat ≤ 32 := by
    rcases h with (rfl | ⟨-, h⟩) | ⟨-, h⟩
    · decide
    · omega
    · omega
  unfold Char.isAlphanum Char.isAlpha Char.isUpper Char.isLower Char.isDigit
  have e : c.val.toNat = c.toNat := rfl
  simp only [Bool.or_eq_false_iff, Bool.and_eq_false_iff, decide_eq_false_iff_not, ge_iff_le, UInt32.le_iff_toNat_le]
  simp only [e, show ('A' : Char).val.toNat = 65 from rfl, show ('Z' : Char).val.toNat = 90 from rfl,
    show ('a' : Char).val.toNat = 97 from rfl, show ('z' : Char).val.toNat = 122 from rfl,
    show ('0' : Char).val.toNat = 48 from rfl, show ('9' : Char).val.toNat = 57 from rfl]
  omega

theorem guard_apart (hg : NameGuard g) {s : String} {w : Word} {t : List Char} (h : Apart w t) (hw : ∀ b, w ≠ .comment b)
    (h1 : w ≠ .key "(") (h2 : w ≠ .key ")") : g s t = true := by
  cases t with
  | nil => exact hg.ends s
  | cons c t =>
    apply hg.passes
    rcases apart_not_alnum h hw h1 h2 c (by simp) with h | rfl | rfl | ⟨rfl, -, -⟩
    · exact space_not_alnum h
    · decide
    · decide
    · decide

theorem prefix_isPrefix (s t : List Char) : s.isPrefixOf (s ++ t) = true := by
  rw [List.isPrefixOf_iff_prefix]; exact List.prefix_append s t

theorem tok_prefix {s : String} {t : List Char} (h : g s t = true) : tok g s (s.toList ++ t) = .ok s t := by
  unfold tok token
  rw [prefix_isPrefix]
  simp [h]

theorem tok_not_prefix {s : String} {t : List Char} (h : ¬ s.toList <+: t) : tok g s t = .fail := by
  unfold tok token
  have : s.toList.isPrefixOf t = false := by
    rw [Bool.eq_false_iff]; intro h'; exact h (List.isPrefixOf_iff_prefix.1 h')
  rw [this]; rfl

theorem key_guard (hg : NameGuard g) {s : String} (_hs : s ∈ keys) {t : List Char} (h : Apart (.key s) t) : g s t = true := by
  by_cases h1 : s = "("
  · subst h1; exact hg.symbols _ _ ⟨'(', by decide, by decide⟩
  by_cases h2 : s = ")"
  · subst h2; exact hg.symbols _ _ ⟨')', by decide, by decide⟩
  exact guard_apart hg h (by simp) (by simpa using h1) (by simpa using h2)

theorem key_read (hg : NameGuard g) {s : String} (hs : s ∈ keys) (more : List Word) : Rd (key g s) (.ok s) [.key s] more := by
  intro t ht
  obtain ⟨t', e, hw, ha, -, hl⟩ := ht.cons_drop
  refine ⟨t', ?_, hw, by simpa using hl⟩
  show tok g s (t.dropWhile isSpace) = _
  rw [e]
  exact tok_prefix (key_guard hg hs ha)

theorem key_nil {s : String} (hs : s.toList ≠ []) : Fl (key g s) [] := by
  intro t ht
  show tok g s (t.dropWhile isSpace) = _
  rw [ht.nil_drop]
  apply tok_not_prefix
  rw [List.prefix_nil]; exact hs

theorem prefix_cases {s w t : List Char} (h : s <+: w ++ t) : s <+: w ∨ w <+: s :=
  List.prefix_or_prefix_of_prefix h (List.prefix_append w t)

theorem tok_apart {s : String} {w t : List Char} (h : s.toList.isPrefixOf w = false) (h' : w.isPrefixOf s.toList = false) :
    tok g s (w ++ t) = .fail := by
  apply tok_not_prefix
  intro hp
  rcases prefix_cases hp with hp | hp
  · rw [List.isPrefixOf_iff_prefix.2 hp] at h; cases h
  · rw [List.isPrefixOf_iff_prefix.2 hp] at h'; cases h'

theorem key_other {s s' : String} (h : s.toList.isPrefixOf s'.toList = false) (h' : s'.toList.isPrefixOf s.toList = false)
    (more : List Word) : Fl (key g s) (.key s' :: more) := by
  intro t ht
  obtain ⟨t', e, -⟩ := ht.cons_drop
  show tok g s (t.dropWhile isSpace) = _
  rw [e]
  exact tok_apart h h'

theorem key_comment {s : String} (h : ∀ c ∈ s.toList.head?, c ≠ '/') (hs : s.toList ≠ []) (b : List Char) (more : List Word) :
    Fl (key g s) (.comment b :: more) := by
  intro t ht
  obtain ⟨t', e, -⟩ := ht.cons_drop
  show tok g s (t.dropWhile isSpace) = _
  rw [e]
  apply tok_not_prefix
  intro hp
  cases hh : s.toList with
  | nil => exact hs hh
  | cons c u =>
    rw [hh] at hp h
    obtain ⟨r, hr⟩ := hp
    simp only [Word.text, List.cons_append, List.cons.injEq] at hr
    exact h c (by simp) hr.1

/-! ## comments -/

theorem firstClose_of_body {b : List Char} (h : CommentBody b) : FirstClose b ∧ trailingStars b % 2 = 0 := by
  obtain ⟨h1, h2⟩ := h
  refine ⟨h1, ?_⟩
  unfold trailingStars
  rw [← List.head?_reverse] at h2
  cases hr : b.reverse with
  | nil => rfl
  | cons c u =>
    rw [hr] at h2
    have := h2 c (by simp)
    rw [List.takeWhile_cons_of_neg (by simpa using this)]; rfl

theorem comment_read {b : List Char} (hb : CommentBody b) (more : List Word) : Rd commentP (.ok ()) [.comment b] more := by
  intro t ht
  obtain ⟨t', e, hw, -, -, hl⟩ := ht.cons_drop
  refine ⟨t', ?_, hw, by simpa using hl⟩
  obtain ⟨h1, h2⟩ := firstClose_of_body hb
  show (match comment (t.dropWhile isSpace) with | some r => Res.ok () r | none => .fail) = _
  rw [e]
  have := C16_comment_end_partial b t' h1 h2
  have e2 : (Word.comment b).text ++ t' = '/' :: '*' :: (b ++ '*' :: '/' :: t') := by simp [Word.text]
  rw [e2, this]

theorem comment_nil : Fl commentP [] := by
  intro t ht
  show (match comment (t.dropWhile isSpace) with | some r => Res.ok () r | none => .fail) = _
  rw [ht.nil_drop]; rfl

theorem comment_key {s : String} (h : ∀ c ∈ s.toList.head?, c ≠ '/') (hs : s.toList ≠ []) (more : List Word) :
    Fl commentP (.key s :: more) := by
  intro t ht
  obtain ⟨t', e, -⟩ := ht.cons_drop
  show (match comment (t.dropWhile isSpace) with | some r => Res.ok () r | none => .fail) = _
  rw [e]
  cases hh : s.toList with
  | nil => exact absurd hh hs
  | cons c u =>
    rw [hh] at h
    have hc := h c (by simp)
    have : comment (c :: u ++ t') = none := by
      unfold comment
      split
      · rename_i heq; simp at heq; exact absurd heq.1 hc
      · rfl
    simp only [Word.text, hh, this]

/-- What may follow a run of comments. -/
def NoComment (ws : List Word) : Prop := ∀ w ∈ ws.head?, ∃ s ∈ keys, w = .key s

theorem comment_no {ws : List Word} (h : NoComment ws) : Fl commentP ws := by
  cases ws with
  | nil => exact comment_nil
  | cons w ws =>
    obtain ⟨s, hs, rfl⟩ := h w (by simp)
    have : ∀ s ∈ keys, (∀ c ∈ s.toList.head?, c ≠ '/') ∧ s.toList ≠ [] := by decide +kernel
    exact comment_key (this s hs).1 (this s hs).2 ws

theorem comments_many {cs more : List Word} (h : CommentWords cs) (hm : NoComment more) :
    ∃ l, Rd (many commentP) (.ok l) cs more := by
  induction h with
  | nil => exact ⟨[], Rd.manyNil (comment_no hm)⟩
  | cons b ws hb _ ih =>
    obtain ⟨l, ih⟩ := ih
    exact ⟨() :: l, Rd.manyCons (comment_read hb _) (by simp) ih⟩

theorem comments_read {cs more : List Word} (h : CommentWords cs) (hne : cs ≠ []) (hm : NoComment more) :
    Rd commentsP (.ok ()) cs more := by
  cases h with
  | nil => exact absurd rfl hne
  | cons b ws hb h =>
    obtain ⟨l, hl⟩ := comments_many h hm
    have h1 : Rd (many1 commentP) (.ok (() :: l)) (.comment b :: ws) more := Rd.many1 (ws := [.comment b]) (comment_read hb _) hl
    have := (Rd.bind (vs := []) (f := fun _ => pure ()) (by simpa using h1) (Rd.pure () more)).skip
    rw [List.append_nil] at this
    exact this

theorem comments_no {more : List Word} (hm : NoComment more) : Fl commentsP more :=
  (Fl.bind (comment_no hm).many1).skip

theorem optComments_read {cs more : List Word} (h : CommentWords cs) (hm : NoComment more) :
    ∃ v, Rd (opt commentsP) (.ok v) cs more := by
  by_cases hne : cs = []
  · subst hne; exact ⟨none, Rd.optNone (comments_no hm)⟩
  · exact ⟨some (), (comments_read h hne hm).opt⟩

/-! ## operators, directions, ids -/

theorem op_read (hg : NameGuard g) (o : Op) (more : List Word) : Rd (opP g) (.ok o) [.key (opWord o)] more := by
  have go : ∀ (s : String) (o : Op), s ∈ keys → Rd (do let _ ← key g s; pure o) (.ok o) [.key s] more := by
    intro s o hs
    exact Rd.bind (vs := []) (key_read hg hs _) (Rd.pure o more)
  apply Rd.skip
  cases o with
  | union => exact Rd.altOk (go "union" .union (by decide))
  | intersect =>
    exact Rd.altFail (Fl.bind (key_other (by decide +kernel) (by decide +kernel) _)) (Rd.altOk (go "intersect" .intersect (by decide)))
  | except =>
    exact Rd.altFail (Fl.bind (key_other (by decide +kernel) (by decide +kernel) _))
      (Rd.altFail (Fl.bind (key_other (by decide +kernel) (by decide +kernel) _)) (Rd.altOk (go "except" .except (by decide))))

/-- What may follow a chain. -/
def ChainStop (ws : List Word) : Prop := ∀ w ∈ ws.head?, w = .key ")"

theorem op_no {ws : List Word} (h : ChainStop ws) : Fl (opP g) ws := by
  apply Fl.skip
  cases ws with
  | nil =>
    exact Fl.alt (Fl.bind (key_nil (by decide))) (Fl.alt (Fl.bind (key_nil (by decide))) (Fl.alt (Fl.bind (key_nil (by decide))) Fl.altsNil))
  | cons w ws =>
    obtain rfl := h w (by simp)
    exact Fl.alt (Fl.bind (key_other (by decide +kernel) (by decide +kernel) _)) (Fl.alt (Fl.bind (key_other (by decide +kernel) (by decide +kernel) _))
      (Fl.alt (Fl.bind (key_other (by decide +kernel) (by decide +kernel) _)) Fl.altsNil))

theorem direction_read (hg : NameGuard g) (d : Dir) (more : List Word) : Rd (direction g) (.ok d) [.key (dirWord d)] more := by
  apply Rd.skip
  cases d with
  | src => exact Rd.altOk (Rd.bind (vs := []) (key_read hg (by decide) _) (Rd.pure _ more))
  | dst =>
    exact Rd.altFail (Fl.bind (key_other (by decide +kernel) (by decide +kernel) _))
      (Rd.altOk (Rd.bind (vs := []) (key_read hg (by decide) _) (Rd.pure _ more)))

theorem isPatternChar_iff (c : Char) : isPatternChar c = true ↔ c.isAlphanum = true ∨ c ∈ "_-.?*[]!/".toList := by
  unfold isPatternChar
  rw [Bool.or_eq_true, List.contains_iff_mem]

theorem id_read (hg : NameGuard g) {w : List Char} (hw : IdText w) (more : List Word) :
    Rd (setId g) (.ok w) [.key "id", .id w] more := by
  apply Rd.skip
  refine Rd.bind (ws := [.key "id"]) (vs := [.id w]) (key_read hg (by decide) _) ?_
  intro t ht
  obtain ⟨t', e, hr, ha, -, hl⟩ := ht.cons_drop
  refine ⟨t', ?_, hr, by simpa using hl⟩
  show pat (.plus isPatternChar) (t.dropWhile isSpace) = _
  rw [e]
  refine pat_plus hw.1 (fun c hc => (isPatternChar_iff c).2 (hw.2 c hc)) ?_
  intro c hc
  rw [Bool.eq_false_iff]
  intro h
  rw [isPatternChar_iff] at h
  rcases apart_not_alnum ha (by simp) (by simp) (by simp) c hc with h' | rfl | rfl | ⟨-, -, h'⟩
  · rcases h with h | h
    · rw [space_not_alnum h'] at h; cases h
    · have : ∀ c ∈ "_-.?*[]!/".toList, isSpace c = false := by decide +kernel
      rw [this c h] at h'; cases h'
  · revert h; decide
  · revert h; decide
  · exact absurd rfl (h' w)

end Acltk.CafText
