import Verif.Model.Peg
import Verif.Props.Lookup
/-!
# Lemmas on the parsing primitives
-/
namespace Acltk.Peg
open Acltk Acltk.Lookup

section basic
variable {α β : Type}

theorem bind_apply (p : P α) (f : α → P β) (t : Text) :
    (p >>= f) t = match p t with | .ok a r => f a r | .fail => .fail | .raise e => .raise e := rfl

theorem bind_ok {p : P α} {f : α → P β} {t r : Text} {a : α} (h : p t = .ok a r) : (p >>= f) t = f a r := by
  rw [bind_apply, h]

theorem bind_fail {p : P α} {f : α → P β} {t : Text} (h : p t = .fail) : (p >>= f) t = .fail := by
  rw [bind_apply, h]

theorem bind_raise {p : P α} {f : α → P β} {t : Text} {e : PyErr} (h : p t = .raise e) : (p >>= f) t = .raise e := by
  rw [bind_apply, h]

theorem pure_apply (a : α) (t : Text) : (pure a : P α) t = .ok a t := rfl

theorem alt_fail {p q : P α} {t : Text} (h : p t = .fail) : alt p q t = q t := by
  unfold alt; rw [h]

theorem alt_ok {p q : P α} {t r : Text} {a : α} (h : p t = .ok a r) : alt p q t = .ok a r := by
  unfold alt; rw [h]

theorem alts_fail {p : P α} {l : List (P α)} {t : Text} (h : p t = .fail) : alts (p :: l) t = alts l t :=
  alt_fail h

theorem alts_ok {p : P α} {l : List (P α)} {t r : Text} {a : α} (h : p t = .ok a r) : alts (p :: l) t = .ok a r :=
  alt_ok h

theorem alts_nil (t : Text) : alts ([] : List (P α)) t = .fail := rfl

theorem opt_ok {p : P α} {t r : Text} {a : α} (h : p t = .ok a r) : opt p t = .ok (some a) r := by
  unfold opt; rw [h]

theorem opt_fail {p : P α} {t : Text} (h : p t = .fail) : opt p t = .ok none t := by
  unfold opt; rw [h]

theorem act_ok {x : Py α} {a : α} (h : x = .ok a) (t : Text) : act x t = .ok a t := by
  unfold act; rw [h]

theorem ahead_ok {p : P α} {t r : Text} {a : α} (h : p t = .ok a r) : ahead p t = .ok () t := by
  unfold ahead; rw [h]

theorem ahead_fail {p : P α} {t : Text} (h : p t = .fail) : ahead p t = .fail := by
  unfold ahead; rw [h]

theorem many_fail {p : P α} {t : Text} (h : p t = .fail) : many p t = .ok [] t := by
  rw [many, h]

theorem many_stay {p : P α} {t r : Text} {a : α} (h : p t = .ok a r) (hl : ¬ r.length < t.length) :
    many p t = .ok [] t := by
  rw [many, h]; simp only; rw [if_neg hl]

theorem many_ok {p : P α} {t r s : Text} {a : α} {l : List α} (h : p t = .ok a r) (hl : r.length < t.length)
    (hr : many p r = .ok l s) : many p t = .ok (a :: l) s := by
  rw [many, h]; simp only; rw [if_pos hl, hr]

theorem many1_ok {p : P α} {t r s : Text} {a : α} {l : List α} (h : p t = .ok a r)
    (hr : many p r = .ok l s) : many1 p t = .ok (a :: l) s := by
  unfold many1; rw [h]; simp only; rw [hr]

theorem many1_fail {p : P α} {t : Text} (h : p t = .fail) : many1 p t = .fail := by
  unfold many1; rw [h]

end basic

/-! ## patterns -/

theorem starRests_head {q : Char → Bool} {w t : Text} (hw : ∀ c ∈ w, q c = true)
    (ht : ∀ c ∈ t.head?, q c = false) : ∃ L, starRests q (w ++ t) = t :: L := by
  induction w with
  | nil =>
    cases t with
    | nil => exact ⟨[], rfl⟩
    | cons c t => exact ⟨[], by simp [starRests, ht c (by simp)]⟩
  | cons c w ih =>
    obtain ⟨L, hL⟩ := ih (fun d hd => hw d (by simp [hd]))
    exact ⟨L ++ [c :: (w ++ t)], by simp [starRests, hw c (by simp), hL]⟩

theorem pat_of_run {r : Re} {w t : Text} {L : List Text} (h : r.run (w ++ t) = t :: L) :
    pat r (w ++ t) = .ok w t := by
  unfold pat; rw [h]; simp

theorem pat_fail {r : Re} {t : Text} (h : r.run t = []) : pat r t = .fail := by
  unfold pat; rw [h]

theorem pat_star {q : Char → Bool} {w t : Text} (hw : ∀ c ∈ w, q c = true)
    (ht : ∀ c ∈ t.head?, q c = false) : pat (.star q) (w ++ t) = .ok w t := by
  obtain ⟨L, h⟩ := starRests_head hw ht
  exact pat_of_run (L := L) h

theorem run_cls_star {p q : Char → Bool} {c : Char} {w t : Text} (hc : p c = true) (hw : ∀ c ∈ w, q c = true)
    (ht : ∀ c ∈ t.head?, q c = false) : ∃ L, (Re.seq (.cls p) (.star q)).run (c :: w ++ t) = t :: L := by
  obtain ⟨L, h⟩ := starRests_head hw ht
  exact ⟨L, by simp [Re.run, hc, h]⟩

theorem pat_cls_star {p q : Char → Bool} {c : Char} {w t : Text} (hc : p c = true) (hw : ∀ c ∈ w, q c = true)
    (ht : ∀ c ∈ t.head?, q c = false) : pat (.seq (.cls p) (.star q)) (c :: w ++ t) = .ok (c :: w) t := by
  obtain ⟨L, h⟩ := run_cls_star hc hw ht
  exact pat_of_run (w := c :: w) (L := L) h

theorem pat_cls_fail {p q : Char → Bool} {t : Text} (ht : ∀ c ∈ t.head?, p c = false) :
    pat (.seq (.cls p) (.star q)) t = .fail := by
  apply pat_fail
  cases t with
  | nil => rfl
  | cons c t => simp [Re.run, ht c (by simp)]

theorem pat_plus {q : Char → Bool} {w t : Text} (hne : w ≠ []) (hw : ∀ c ∈ w, q c = true)
    (ht : ∀ c ∈ t.head?, q c = false) : pat (.plus q) (w ++ t) = .ok w t := by
  cases w with
  | nil => exact absurd rfl hne
  | cons c w => exact pat_cls_star (hw c (by simp)) (fun d hd => hw d (by simp [hd])) ht

/-! ## blanks -/

theorem ws_ok {b t : Text} (hne : b ≠ []) (hb : ∀ c ∈ b, c = ' ' ∨ c = '\t')
    (ht : ∀ c ∈ t.head?, c ≠ ' ' ∧ c ≠ '\t') : ws (b ++ t) = .ok () t := by
  unfold ws
  rw [bind_ok (pat_plus (w := b) (t := t) hne (fun c hc => by
    rcases hb c hc with rfl | rfl <;> rfl) (fun c hc => by
    have := ht c hc; simp [isWs, this]))]
  rfl

theorem ws_fail {t : Text} (ht : ∀ c ∈ t.head?, c ≠ ' ' ∧ c ≠ '\t') : ws t = .fail := by
  unfold ws
  exact bind_fail (pat_cls_fail (fun c hc => by have := ht c hc; simp [isWs, this]))

/-! ## tokens on words -/

theorem endOfWord_cons {t : Text} (h : EndOfWord t) : ∃ s u, t = s :: u ∧ isBlank s = true ∧ s.isAlphanum = false := by
  obtain ⟨u, rfl | rfl | rfl | rfl⟩ := h <;> exact ⟨_, _, rfl, by decide, by decide⟩

/-- What a token does on a word. -/
theorem tok_word {g : Guard} {k w : String} {t : Text} (hk : ∀ c ∈ k.toList, isBlank c = false)
    (ht : EndOfWord t) (hp : ∀ n c u, c.isAlphanum = false → g n (c :: u) = true) :
    (w = k → tok g k (w.toList ++ t) = .ok k t) ∧
    (w ≠ k → tok g k (w.toList ++ t) = .fail ∨
      ∃ c u, w.toList = k.toList ++ c :: u ∧ tok g k (w.toList ++ t) = .ok k (c :: u ++ t) ∧
        g k (c :: u ++ t) = true) := by
  obtain ⟨s, u0, rfl, hs, hsa⟩ := endOfWord_cons ht
  constructor
  · rintro rfl
    unfold tok token
    have : w.toList.isPrefixOf (w.toList ++ s :: u0) = true := by
      rw [List.isPrefixOf_iff_prefix]; exact ⟨_, rfl⟩
    simp [this, hp w s u0 hsa]
  · intro hne
    cases htk : token g (w.toList ++ s :: u0) k with
    | none => left; unfold tok; rw [htk]
    | some r =>
      obtain ⟨rest, hr, rfl⟩ := token_some htk
      obtain ⟨a, ha⟩ := prefix_of_word (stop := isBlank) hk hs hr
      cases a with
      | nil => exact absurd (String.toList_inj.1 (by simpa using ha.symm)) hne
      | cons c a =>
        right
        refine ⟨c, a, ha.symm, ?_, ?_⟩
        · have : rest = c :: a ++ s :: u0 := by
            rw [← ha, List.append_assoc] at hr
            exact (List.append_cancel_left hr).symm
          unfold tok; rw [htk, this]
        · have : rest = c :: a ++ s :: u0 := by
            rw [← ha, List.append_assoc] at hr
            exact (List.append_cancel_left hr).symm
          unfold token at htk
          have hpre : k.toList.isPrefixOf (w.toList ++ s :: u0) = true := by
            rw [List.isPrefixOf_iff_prefix]; exact ⟨c :: a ++ s :: u0, by rw [← ha]; simp⟩
          rw [if_pos hpre] at htk
          have hd : (w.toList ++ s :: u0).drop k.toList.length = c :: a ++ s :: u0 := by
            rw [← ha, List.append_assoc, List.drop_left]
          simp only [hd] at htk
          split at htk
          · assumption
          · cases htk

/-- The token is the word, or a beginning of it that the guard need not refuse. -/
def mayMatch (w k : String) : Bool :=
  k == w || (k.toList.isPrefixOf w.toList &&
    !(k.toList.all Char.isAlphanum && (k.toList.head?.map Char.isAlpha).getD false &&
      ((w.toList.drop k.toList.length).head?.map Char.isAlphanum).getD false))

/-- The two conditions on the guard. -/
structure GuardOk (g : Guard) : Prop where
  passes : ∀ n c t, c.isAlphanum = false → g n (c :: t) = true
  refuses : ∀ n c t, (∃ a l, n.toList = a :: l ∧ a.isAlpha = true) → (∀ d ∈ n.toList, d.isAlphanum = true) →
    c.isAlphanum = true → g n (c :: t) = false

theorem tok_no {g : Guard} (hg : GuardOk g) {k w : String} {t : Text} (hk : ∀ c ∈ k.toList, isBlank c = false)
    (ht : EndOfWord t) (hm : mayMatch w k = false) : tok g k (w.toList ++ t) = .fail := by
  by_cases h : w = k
  · subst h; simp [mayMatch] at hm
  · rcases (tok_word hk ht hg.passes).2 h with h' | ⟨c, u, h1, h2, h3⟩
    · exact h'
    · exfalso
      have hp : k.toList.isPrefixOf w.toList = true := by
        rw [List.isPrefixOf_iff_prefix]; exact ⟨_, h1.symm⟩
      have hd : w.toList.drop k.toList.length = c :: u := by rw [h1, List.drop_left]
      simp only [mayMatch, hp, hd, Bool.or_eq_false_iff, Bool.true_and, Bool.not_eq_false', Bool.and_eq_true,
        List.head?_cons, Option.map_some, Option.getD_some] at hm
      obtain ⟨-, ⟨ha, hb⟩, hc⟩ := hm
      have := hg.refuses k c (u ++ t) (by
        cases hl : k.toList with
        | nil => rw [hl] at hb; simp at hb
        | cons a l => rw [hl] at hb; exact ⟨a, l, rfl, by simpa using hb⟩)
        (fun d hd => List.all_eq_true.1 ha d hd) hc
      simp only [List.cons_append] at h3
      rw [this] at h3; cases h3

/-- The first token of the list that may match is the word itself. -/
theorem oneOf_word {g : Guard} (hg : GuardOk g) {w : String} {t : Text} (ht : EndOfWord t) {l : List String}
    (hl : ∀ k ∈ l, ∀ c ∈ k.toList, isBlank c = false) (h : l.find? (mayMatch w) = some w) :
    oneOf g l (w.toList ++ t) = .ok w t := by
  induction l with
  | nil => cases h
  | cons k l ih =>
    rw [List.find?_cons] at h
    split at h
    · cases h
      exact alt_ok ((tok_word (hl _ (by simp)) ht hg.passes).1 rfl)
    · rename_i hm
      unfold oneOf
      rw [alt_fail (tok_no hg (hl k (by simp)) ht hm)]
      exact ih (fun k hk => hl k (by simp [hk])) h

theorem oneOf_no {g : Guard} (hg : GuardOk g) {w : String} {t : Text} (ht : EndOfWord t) {l : List String}
    (hl : ∀ k ∈ l, ∀ c ∈ k.toList, isBlank c = false) (h : ∀ k ∈ l, mayMatch w k = false) :
    oneOf g l (w.toList ++ t) = .fail := by
  induction l with
  | nil => rfl
  | cons k l ih =>
    unfold oneOf
    rw [alt_fail (tok_no hg (hl k (by simp)) ht (h k (by simp)))]
    exact ih (fun k hk => hl k (by simp [hk])) (fun k hk => h k (by simp [hk]))

/-- A choice of tokens on a word that is none of them leaves a part of the word, if it matches. -/
theorem oneOf_other {g : Guard} (hg : GuardOk g) {w : String} {t : Text} (ht : EndOfWord t) {l : List String}
    (hl : ∀ k ∈ l, ∀ c ∈ k.toList, isBlank c = false) (h : w ∉ l) :
    oneOf g l (w.toList ++ t) = .fail ∨
      ∃ k c u, w.toList = k.toList ++ c :: u ∧ oneOf g l (w.toList ++ t) = .ok k (c :: u ++ t) := by
  induction l with
  | nil => exact Or.inl rfl
  | cons k l ih =>
    unfold oneOf
    have hne : w ≠ k := by rintro rfl; exact h (by simp)
    rcases (tok_word (hl k (by simp)) ht hg.passes).2 hne with h' | ⟨c, u, h1, h2, h3⟩
    · rw [alt_fail h']
      exact ih (fun k hk => hl k (by simp [hk])) (fun hm => h (by simp [hm]))
    · rw [alt_ok h2]
      exact Or.inr ⟨k, c, u, h1, rfl⟩

theorem ws_in_word {β : Type} {f : Unit → P β} {w : List Char} (hw : ∀ c ∈ w, isBlank c = false) {c : Char} {u t : Text}
    (h : c ∈ w) : (ws >>= f) (c :: u ++ t) = .fail := by
  apply bind_fail
  apply ws_fail
  intro d hd
  simp at hd; subst hd
  have := hw c h
  simp [isBlank] at this
  exact ⟨this.1.1.1, this.1.1.2⟩

/-- A keyword and blanks: the word must be the keyword. -/
theorem kw_other {β : Type} {g : Guard} (hg : GuardOk g) {k w : String} {t : Text} {f : String → Unit → P β}
    (hk : ∀ c ∈ k.toList, isBlank c = false) (hw : ∀ c ∈ w.toList, isBlank c = false)
    (ht : EndOfWord t) (h : w ≠ k) : (tok g k >>= fun x => ws >>= f x) (w.toList ++ t) = .fail := by
  rcases (tok_word hk ht hg.passes).2 h with h' | ⟨c, u, h1, h2, h3⟩
  · exact bind_fail h'
  · rw [bind_ok h2]
    exact ws_in_word hw (by rw [h1]; simp)

theorem kws_other {β : Type} {g : Guard} (hg : GuardOk g) {w : String} {t : Text} {l : List String}
    {f : String → Unit → P β}
    (hl : ∀ k ∈ l, ∀ c ∈ k.toList, isBlank c = false) (hw : ∀ c ∈ w.toList, isBlank c = false)
    (ht : EndOfWord t) (h : w ∉ l) : (oneOf g l >>= fun x => ws >>= f x) (w.toList ++ t) = .fail := by
  rcases oneOf_other hg ht hl h with h' | ⟨k, c, u, h1, h2⟩
  · exact bind_fail h'
  · rw [bind_ok h2]
    exact ws_in_word hw (by rw [h1]; simp)

end Acltk.Peg
