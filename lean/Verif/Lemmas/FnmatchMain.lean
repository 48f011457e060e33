import Verif.Lemmas.FnmatchClass
namespace Acltk.Fnmatch
open Glob

/-- Token level matching. -/
inductive TM : List Tok → List Char → Prop
  | nil : TM [] []
  | one {c x ts s} : c.has x = true → TM ts s → TM (.one c :: ts) (x :: s)
  | star {ts u s} : TM ts s → TM (.star :: ts) (u ++ s)

theorem TM_append (a b : List Tok) (s : List Char) :
    TM (a ++ b) s ↔ ∃ s1 s2, s = s1 ++ s2 ∧ TM a s1 ∧ TM b s2 := by
  constructor
  · induction a generalizing s with
    | nil => intro h; exact ⟨[], s, rfl, .nil, h⟩
    | cons t a ih =>
      intro h
      cases h with
      | one hc h => obtain ⟨s1, s2, rfl, h1, h2⟩ := ih _ h; exact ⟨_ :: s1, s2, rfl, .one hc h1, h2⟩
      | star h =>
        rename_i u s'
        obtain ⟨s1, s2, rfl, h1, h2⟩ := ih _ h
        exact ⟨u ++ s1, s2, by simp, .star h1, h2⟩
  · rintro ⟨s1, s2, rfl, h1, h2⟩
    induction h1 with
    | nil => exact h2
    | one hc _ ih => exact .one hc ih
    | star _ ih => rw [List.append_assoc]; exact .star ih

theorem TM_star_iff (ts : List Tok) (s : List Char) :
    TM (.star :: ts) s ↔ ∃ t, t <:+ s ∧ TM ts t := by
  constructor
  · intro h; cases h with | star h => exact ⟨_, List.suffix_append _ _, h⟩
  · rintro ⟨t, ⟨u, rfl⟩, h⟩; exact .star h

theorem mem_suffixes (s t : List Char) : t ∈ suffixes s ↔ t <:+ s := by
  induction s with
  | nil => simp [suffixes]
  | cons x s ih => simp [suffixes, ih, List.suffix_cons_iff]

theorem fixedPart_spec (ts : List Tok) :
    ts = (fixedPart ts).1.map .one ++ (fixedPart ts).2 ∧
    (∀ t r, (fixedPart ts).2 = t :: r → t = .star) := by
  induction ts with
  | nil => simp [fixedPart]
  | cons t ts ih =>
    cases t with
    | star => simp [fixedPart]
    | one c =>
      refine ⟨?_, ?_⟩
      · simp only [fixedPart, List.map_cons, List.cons_append]
        rw [← ih.1]
      · simp only [fixedPart]; exact ih.2

theorem TM_fixed (f : List Cls) (ts : List Tok) (s : List Char) :
    TM (f.map .one ++ ts) s ↔ ∃ r, matchFixed f s = some r ∧ TM ts r := by
  induction f generalizing s with
  | nil => simp [matchFixed]
  | cons c f ih =>
    cases s with
    | nil =>
      simp only [List.map_cons, List.cons_append, matchFixed, reduceCtorEq, false_and, exists_false,
        iff_false]
      intro h; cases h
    | cons x s =>
      simp only [List.map_cons, List.cons_append, matchFixed]
      constructor
      · intro h; cases h with
        | one hc h => rw [if_pos hc]; exact (ih s).1 h
      · rintro ⟨r, h1, h2⟩
        by_cases hc : c.has x = true
        · rw [if_pos hc] at h1; exact .one hc ((ih s).2 ⟨r, h1, h2⟩)
        · rw [if_neg hc] at h1; simp at h1

theorem run_fixed (f : List Cls) (ps : List Piece) (s : List Char) :
    runPieces (f.map .one ++ ps) s = true ↔ ∃ r, matchFixed f s = some r ∧ runPieces ps r = true := by
  induction f generalizing s with
  | nil => simp [matchFixed]
  | cons c f ih =>
    cases s with
    | nil => simp [matchFixed, runPieces]
    | cons x s =>
      simp only [List.map_cons, List.cons_append, matchFixed, runPieces, Bool.and_eq_true, ih]
      by_cases hc : c.has x = true <;> simp [hc]

theorem matchFixed_drop {f : List Cls} {s r : List Char} (h : matchFixed f s = some r) :
    r = s.drop f.length := by
  induction f generalizing s with
  | nil => simp [matchFixed] at h; simp [h]
  | cons c f ih =>
    cases s with
    | nil => simp [matchFixed] at h
    | cons x s =>
      simp only [matchFixed] at h
      split at h
      · simpa using ih h
      · simp at h

theorem atomicFind_none {f : List Cls} {s : List Char} (h : atomicFind f s = none) :
    ∀ t, t <:+ s → matchFixed f t = none := by
  induction s with
  | nil => intro t ht; have : t = [] := by simpa using ht
           subst this; simpa [atomicFind] using h
  | cons x s ih =>
    intro t ht
    unfold atomicFind at h
    split at h
    · simp at h
    · rename_i hm
      rcases List.suffix_cons_iff.1 ht with rfl | ht
      · exact hm
      · exact ih h t ht

theorem drop_suffix {s t : List Char} (n : Nat) (h : t <:+ s) : t.drop n <:+ s.drop n := by
  obtain ⟨u, rfl⟩ := h
  rw [List.drop_append]
  by_cases hn : n ≤ u.length
  · rw [Nat.sub_eq_zero_of_le hn, List.drop_zero]
    exact (List.drop_suffix n t).trans (List.suffix_append _ _)
  · have : u.drop n = [] := List.drop_eq_nil_of_le (by omega)
    rw [this, List.nil_append]
    have e : n = (n - u.length) + u.length := by omega
    conv => lhs; rw [e, ← List.drop_drop, ]
    have := List.drop_suffix u.length (t.drop (n - u.length))
    rw [List.drop_drop] at this
    simpa [List.drop_drop] using this

theorem atomicFind_some {f : List Cls} {s r0 : List Char} (h : atomicFind f s = some r0) :
    (∃ t, t <:+ s ∧ matchFixed f t = some r0) ∧
    ∀ t r, t <:+ s → matchFixed f t = some r → r <:+ r0 := by
  induction s with
  | nil =>
    refine ⟨⟨[], List.suffix_refl _, by simpa [atomicFind] using h⟩, ?_⟩
    intro t r ht hr
    have : t = [] := by simpa using ht
    subst this
    unfold atomicFind at h; rw [h] at hr
    simp only [Option.some.injEq] at hr; subst hr; exact List.suffix_refl _
  | cons x s ih =>
    unfold atomicFind at h
    split at h
    · rename_i r hm
      simp only [Option.some.injEq] at h; subst h
      refine ⟨⟨_, List.suffix_refl _, hm⟩, ?_⟩
      intro t r ht hr
      rw [matchFixed_drop hr, matchFixed_drop hm]
      exact drop_suffix _ ht
    · rename_i hm
      obtain ⟨⟨t, ht, h1⟩, h2⟩ := ih h
      refine ⟨⟨t, List.suffix_cons_iff.2 (.inr ht), h1⟩, ?_⟩
      intro t r ht hr
      rcases List.suffix_cons_iff.1 ht with rfl | ht
      · rw [hm] at hr; simp at hr
      · exact h2 t r ht hr

theorem buildStar_nil : buildStar [] = [.dotStar] := by rw [buildStar]

theorem buildStar_end (ts : List Tok) (hne : ts ≠ []) (h : (fixedPart ts).2 = []) :
    buildStar ts = .dotStar :: (fixedPart ts).1.map .one := by
  cases ts with
  | nil => simp at hne
  | cons t ts =>
    rw [buildStar]; split
    · rfl
    · simp_all

theorem buildStar_cons (ts : List Tok) (t' : Tok) (r : List Tok) (h : (fixedPart ts).2 = t' :: r) :
    buildStar ts = .atomic (fixedPart ts).1 :: buildStar r := by
  cases ts with
  | nil => simp [fixedPart] at h
  | cons t ts =>
    rw [buildStar]; split
    · simp_all
    · rename_i t'' r' h'
      rw [h] at h'
      simp only [List.cons.injEq] at h'
      obtain ⟨rfl, rfl⟩ := h'
      rfl

theorem buildStar_iff (n : Nat) : ∀ (ts : List Tok) (s : List Char), ts.length ≤ n →
    (runPieces (buildStar ts) s = true ↔ TM (.star :: ts) s) := by
  induction n with
  | zero =>
    intro ts s hn
    have : ts = [] := by simpa using hn
    subst this
    rw [buildStar_nil, TM_star_iff]
    simp only [runPieces, List.any_eq_true, mem_suffixes, List.isEmpty_iff]
    constructor
    · rintro ⟨t, ht, rfl⟩; exact ⟨[], ht, .nil⟩
    · rintro ⟨t, ht, h⟩; cases h; exact ⟨[], ht, rfl⟩
  | succ n ih =>
    intro ts s hn
    by_cases hne : ts = []
    · subst hne
      rw [buildStar_nil, TM_star_iff]
      simp only [runPieces, List.any_eq_true, mem_suffixes, List.isEmpty_iff]
      constructor
      · rintro ⟨t, ht, rfl⟩; exact ⟨[], ht, .nil⟩
      · rintro ⟨t, ht, h⟩; cases h; exact ⟨[], ht, rfl⟩
    have hspec := fixedPart_spec ts
    cases hr : (fixedPart ts).2 with
    | nil =>
      rw [buildStar_end ts hne hr, TM_star_iff]
      have e := hspec.1
      rw [hr] at e
      simp only [runPieces, List.any_eq_true, mem_suffixes]
      constructor
      · rintro ⟨t, ht, h⟩
        have := (run_fixed (fixedPart ts).1 [] t).1 (by simpa using h)
        obtain ⟨r, h1, h2⟩ := this
        simp only [runPieces, List.isEmpty_iff] at h2; subst h2
        exact ⟨t, ht, by rw [e]; exact (TM_fixed _ _ _).2 ⟨[], h1, .nil⟩⟩
      · rintro ⟨t, ht, h⟩
        rw [e] at h
        obtain ⟨r, h1, h2⟩ := (TM_fixed _ _ _).1 h
        cases h2
        refine ⟨t, ht, ?_⟩
        have := (run_fixed (fixedPart ts).1 [] t).2 ⟨[], h1, by rfl⟩
        simpa using this
    | cons t' r =>
      have ht' := hspec.2 _ _ hr
      subst ht'
      rw [buildStar_cons ts _ r hr]
      have e := hspec.1
      rw [hr] at e
      have hlen := fixedPart_length ts
      rw [hr] at hlen
      have ihr := fun s => ih r s (by simp at hlen; omega)
      rw [TM_star_iff]
      simp only [runPieces]
      cases hf : atomicFind (fixedPart ts).1 s with
      | none =>
        simp only [Bool.false_eq_true, false_iff]
        rintro ⟨t, ht, h⟩
        rw [e] at h
        obtain ⟨r', h1, _⟩ := (TM_fixed _ _ _).1 h
        rw [atomicFind_none hf t ht] at h1; simp at h1
      | some r0 =>
        obtain ⟨⟨t0, ht0, hm0⟩, hall⟩ := atomicFind_some hf
        simp only
        rw [ihr r0]
        constructor
        · intro h
          exact ⟨t0, ht0, by rw [e]; exact (TM_fixed _ _ _).2 ⟨r0, hm0, h⟩⟩
        · rintro ⟨t, ht, h⟩
          rw [e] at h
          obtain ⟨r', h1, h2⟩ := (TM_fixed _ _ _).1 h
          have := hall t r' ht h1
          rw [TM_star_iff] at h2 ⊢
          obtain ⟨q, hq, h3⟩ := h2
          exact ⟨q, hq.trans this, h3⟩

theorem build_iff (ts : List Tok) (s : List Char) :
    runPieces (build ts) s = true ↔ TM ts s := by
  have hspec := fixedPart_spec ts
  unfold build
  simp only
  rw [run_fixed]
  conv => rhs; rw [hspec.1, TM_fixed]
  constructor
  · rintro ⟨r, h1, h2⟩
    refine ⟨r, h1, ?_⟩
    cases hr : (fixedPart ts).2 with
    | nil => rw [hr] at h2; simp only [runPieces, List.isEmpty_iff] at h2; subst h2; exact .nil
    | cons t q =>
      rw [hr] at h2
      have := hspec.2 _ _ hr; subst this
      exact (buildStar_iff _ q r (Nat.le_refl _)).1 h2
  · rintro ⟨r, h1, h2⟩
    refine ⟨r, h1, ?_⟩
    cases hr : (fixedPart ts).2 with
    | nil => rw [hr] at h2; cases h2; rfl
    | cons t q =>
      rw [hr] at h2
      have := hspec.2 _ _ hr; subst this
      exact (buildStar_iff _ q r (Nat.le_refl _)).2 h2

/-! ### the bracket scanner -/

theorem takeWhile_drop_close (l : List Char) :
    (∀ x rest, l.dropWhile (fun c => decide (c ≠ ']')) = x :: rest →
      l = l.takeWhile (fun c => decide (c ≠ ']')) ++ ']' :: rest ∧
      ']' ∉ l.takeWhile (fun c => decide (c ≠ ']'))) ∧
    (l.dropWhile (fun c => decide (c ≠ ']')) = [] → ']' ∉ l) := by
  have h1 := List.takeWhile_append_dropWhile (p := fun c => decide (c ≠ ']')) (l := l)
  have h3 := List.all_takeWhile (p := fun c => decide (c ≠ ']')) (l := l)
  have h4 : ']' ∉ l.takeWhile (fun c => decide (c ≠ ']')) := by
    intro hm
    rw [List.all_eq_true] at h3
    simpa using h3 _ hm
  constructor
  · intro x rest hd
    have hx : x = ']' := by
      have := List.head?_dropWhile_not (fun c => decide (c ≠ ']')) l
      rw [hd] at this; simpa using this
    subst hx
    rw [hd] at h1
    exact ⟨h1.symm, h4⟩
  · intro hd
    rw [hd, List.append_nil] at h1
    rwa [h1] at h4

theorem split_unique {a b c d : List Char} (ha : ']' ∉ a) (hb : ']' ∉ b)
    (h : a ++ ']' :: c = b ++ ']' :: d) : a = b ∧ c = d := by
  induction a generalizing b with
  | nil =>
    cases b with
    | nil => simpa using h
    | cons y b => simp at h; rw [← h.1] at hb; simp at hb
  | cons x a ih =>
    cases b with
    | nil => simp at h; rw [h.1] at ha; simp at ha
    | cons y b =>
      simp at h ha hb
      have := ih ha.2 hb.2 h.2
      exact ⟨by rw [h.1, this.1], this.2⟩

/-- At most one way to read a bracket. -/
theorem bracketText_unique {n1 n2 : Bool} {b1 b2 t1 t2 p1 p2 : List Char}
    (h1 : BracketText n1 b1 t1) (h2 : BracketText n2 b2 t2)
    (h : t1 ++ ']' :: p1 = t2 ++ ']' :: p2) : n1 = n2 ∧ b1 = b2 ∧ t1 = t2 ∧ p1 = p2 := by
  have body : ∀ {b1 b2 : List Char}, b1 ≠ [] → b2 ≠ [] → ']' ∉ b1.tail → ']' ∉ b2.tail →
      b1 ++ ']' :: p1 = b2 ++ ']' :: p2 → b1 = b2 ∧ p1 = p2 := by
    intro b1 b2 e1 e2 t1 t2 h
    cases b1 with
    | nil => exact absurd rfl e1
    | cons x b1 =>
      cases b2 with
      | nil => exact absurd rfl e2
      | cons y b2 =>
        simp only [List.cons_append, List.cons.injEq] at h
        have : b1 = b2 ∧ p1 = p2 := split_unique t1 t2 h.2
        exact ⟨by rw [h.1, this.1], this.2⟩
  cases h1 with
  | pos e1 f1 g1 =>
    cases h2 with
    | pos e2 f2 g2 => have := body e1 e2 f1 f2 h; exact ⟨rfl, this.1, this.1, this.2⟩
    | neg e2 f2 =>
      exfalso
      cases b1 with
      | nil => exact e1 rfl
      | cons x b1 => simp at h g1; exact g1 h.1
  | neg e1 f1 =>
    cases h2 with
    | pos e2 f2 g2 =>
      exfalso
      cases b2 with
      | nil => exact e2 rfl
      | cons x b2 => simp at h g2; exact g2 h.1.symm
    | neg e2 f2 =>
      simp only [List.cons_append, List.cons.injEq, true_and] at h
      have := body e1 e2 f1 f2 h; exact ⟨rfl, this.1, by rw [this.1], this.2⟩

/-- The scan of the body: given the text after the optional `!`. -/
theorem scanBody (l1 : List Char) :
    (∀ x rest, (skipChar ']' l1).2.dropWhile (fun c => decide (c ≠ ']')) = x :: rest →
      ∃ body, body = (skipChar ']' l1).1 ++ (skipChar ']' l1).2.takeWhile (fun c => decide (c ≠ ']')) ∧
        body ≠ [] ∧ ']' ∉ body.tail ∧ l1 = body ++ ']' :: rest) ∧
    ((skipChar ']' l1).2.dropWhile (fun c => decide (c ≠ ']')) = [] →
      ∀ body p', body ≠ [] → l1 ≠ body ++ ']' :: p') := by
  cases l1 with
  | nil => simp [skipChar]
  | cons c l =>
    by_cases hc : c = ']'
    · subst hc
      have e : skipChar ']' (']' :: l) = ([']'], l) := by simp [skipChar]
      rw [e]
      have := takeWhile_drop_close l
      constructor
      · intro x rest hd
        obtain ⟨h1, h2⟩ := this.1 x rest hd
        exact ⟨_, rfl, by simp, by simpa using h2, congrArg (']' :: ·) h1⟩
      · intro hd body p' hne heq
        have h3 := this.2 hd
        cases body with
        | nil => exact hne rfl
        | cons y b => simp at heq; apply h3; rw [heq.2]; simp
    · have e : skipChar ']' (c :: l) = ([], c :: l) := by simp [skipChar, hc]
      rw [e]
      have := takeWhile_drop_close (c :: l)
      constructor
      · intro x rest hd
        obtain ⟨h1, h2⟩ := this.1 x rest hd
        have htw : (c :: l).takeWhile (fun c => decide (c ≠ ']')) = c :: l.takeWhile (fun c => decide (c ≠ ']')) := by
          simp [hc]
        refine ⟨_, rfl, ?_, ?_, ?_⟩
        · rw [htw]; simp
        · intro hm; exact h2 (by have := List.mem_of_mem_tail hm; simpa using this)
        · simpa using h1
      · intro hd body p' _ heq
        have h3 := this.2 hd
        apply h3; rw [heq]; simp

theorem findClose_spec (l : List Char) :
    (∀ b r, findClose l = some (b, r) → l = b ++ ']' :: r ∧ ∃ neg body, BracketText neg body b) ∧
    (findClose l = none → ∀ neg body t p', l = t ++ ']' :: p' → ¬ BracketText neg body t) := by
  by_cases hc : l.head? = some '!'
  · obtain ⟨l, rfl⟩ : ∃ l', l = '!' :: l' := by
      cases l with
      | nil => simp at hc
      | cons x l => simp at hc; exact ⟨l, by rw [hc]⟩
    have sb := scanBody l
    have e : skipChar '!' ('!' :: l) = (['!'], l) := by simp [skipChar]
    constructor
    · intro b r h
      unfold findClose at h
      rw [e] at h
      simp only at h
      split at h
      · simp at h
      · rename_i x rest hd
        simp only [Option.some.injEq, Prod.mk.injEq] at h
        obtain ⟨hb, rfl⟩ := h
        obtain ⟨body, hbody, h1, h2, h3⟩ := sb.1 x rest hd
        rw [← hbody] at hb
        subst hb
        exact ⟨by rw [h3]; rfl, true, body, .neg h1 h2⟩
    · intro h neg body t p' heq hbt
      unfold findClose at h
      rw [e] at h
      simp only at h
      split at h
      · rename_i hd
        cases hbt with
        | pos e f g => cases body with
          | nil => exact e rfl
          | cons y b => simp at heq g; exact g heq.1.symm
        | neg e f =>
          simp at heq
          exact sb.2 hd body p' e heq
      · simp at h
  · have e : skipChar '!' l = ([], l) := by simp [skipChar, hc]
    have sb := scanBody l
    constructor
    · intro b r h
      unfold findClose at h
      rw [e] at h
      simp only at h
      split at h
      · simp at h
      · rename_i x rest hd
        simp only [Option.some.injEq, Prod.mk.injEq] at h
        obtain ⟨hb, rfl⟩ := h
        obtain ⟨body, hbody, h1, h2, h3⟩ := sb.1 x rest hd
        rw [List.nil_append, ← hbody] at hb
        subst hb
        refine ⟨h3, false, body, .pos h1 h2 ?_⟩
        intro hh
        apply hc
        rw [h3]
        cases body with
        | nil => simp at hh
        | cons y b => simpa using hh
    · intro h neg body t p' heq hbt
      unfold findClose at h
      rw [e] at h
      simp only at h
      split at h
      · rename_i hd
        cases hbt with
        | pos e' f g => exact sb.2 hd body p' e' heq
        | neg e' f => rw [heq] at hc; simp at hc
      · simp at h

/-! ### tokens against the pattern -/

theorem sane_tail {c : Char} {p : List Char} (h : Sane (c :: p)) : Sane p :=
  fun pre t post e hb => h (c :: pre) t post (by rw [e]; rfl) hb

theorem sane_suffix {p q : List Char} (h : Sane (p ++ q)) : Sane q :=
  fun pre t post e hb => h (p ++ pre) t post (by rw [e, List.append_assoc]) hb

theorem tokLoop_iff (n : Nat) : ∀ (p : List Char) (acc : List Tok) (s : List Char), p.length ≤ n →
    Sane p → (TM (tokLoop acc p) s ↔ ∃ s1 s2, s = s1 ++ s2 ∧ TM acc.reverse s1 ∧ Matches p s2) := by
  induction n with
  | zero =>
    intro p acc s hn _
    have : p = [] := by simpa using hn
    subst this
    rw [tokLoop]
    constructor
    · intro h; exact ⟨s, [], by simp, h, .nil⟩
    · rintro ⟨s1, s2, rfl, h1, h2⟩; cases h2; simpa using h1
  | succ n ih =>
    intro p acc s hn hs
    cases p with
    | nil =>
      rw [tokLoop]
      constructor
      · intro h; exact ⟨s, [], by simp, h, .nil⟩
      · rintro ⟨s1, s2, rfl, h1, h2⟩; cases h2; simpa using h1
    | cons c rest =>
      have hlen : rest.length ≤ n := by simp at hn; omega
      have htail := sane_tail hs
      -- one more single-character token
      have single : ∀ (k : Cls) (r : List Char), r.length ≤ n → Sane r →
          (∀ s2, Matches (c :: rest) s2 ↔ ∃ x v, s2 = x :: v ∧ k.has x = true ∧ Matches r v) →
          (TM (tokLoop (.one k :: acc) r) s ↔
            ∃ s1 s2, s = s1 ++ s2 ∧ TM acc.reverse s1 ∧ Matches (c :: rest) s2) := by
        intro k r hr hsr hm
        rw [ih r _ s hr hsr]
        constructor
        · rintro ⟨s1, s2, rfl, h1, h2⟩
          rw [List.reverse_cons, TM_append] at h1
          obtain ⟨s3, s4, rfl, h3, h4⟩ := h1
          cases h4 with
          | one hk h5 => cases h5; exact ⟨s3, _ :: s2, by simp, h3, (hm _).2 ⟨_, _, rfl, hk, h2⟩⟩
        · rintro ⟨s1, s2, rfl, h1, h2⟩
          obtain ⟨x, v, rfl, hk, h3⟩ := (hm _).1 h2
          refine ⟨s1 ++ [x], v, by simp, ?_, h3⟩
          rw [List.reverse_cons, TM_append]
          exact ⟨s1, [x], rfl, h1, .one hk .nil⟩
      by_cases h1 : c = '*'
      · subst h1
        have inv : ∀ s2, Matches ('*' :: rest) s2 ↔ ∃ u v, s2 = u ++ v ∧ Matches rest v := by
          intro s2
          constructor
          · intro h; cases h with
            | star h => exact ⟨_, _, rfl, h⟩
            | lit h => exact absurd rfl h
          · rintro ⟨u, v, rfl, h⟩; exact .star h
        have push : TM (tokLoop (.star :: acc) rest) s ↔
            ∃ s1 s2, s = s1 ++ s2 ∧ TM acc.reverse s1 ∧ Matches ('*' :: rest) s2 := by
          rw [ih rest _ s hlen htail]
          constructor
          · rintro ⟨s1, s2, rfl, h1, h2⟩
            rw [List.reverse_cons, TM_append] at h1
            obtain ⟨s3, s4, rfl, h3, h4⟩ := h1
            exact ⟨s3, s4 ++ s2, by simp, h3, .star h2⟩
          · rintro ⟨s1, s2, rfl, h1, h2⟩
            obtain ⟨u, v, rfl, h3⟩ := (inv _).1 h2
            refine ⟨s1 ++ u, v, by simp, ?_, h3⟩
            rw [List.reverse_cons, TM_append]
            exact ⟨s1, u, rfl, h1, by simpa using TM.star (u := u) .nil⟩
        rw [tokLoop]
        simp only [if_true]
        split
        · rename_i hacc
          obtain ⟨acc', rfl⟩ : ∃ acc', acc = .star :: acc' := by
            cases acc with
            | nil => simp at hacc
            | cons z acc' => simp at hacc; exact ⟨acc', by rw [hacc]⟩
          -- the star is already there
          rw [ih rest _ s hlen htail]
          constructor
          · rintro ⟨s1, s2, rfl, h1, h2⟩
            exact ⟨s1, [] ++ s2, by simp, h1, .star h2⟩
          · rintro ⟨s1, s2, rfl, h1, h2⟩
            obtain ⟨u, v, rfl, h3⟩ := (inv _).1 h2
            refine ⟨s1 ++ u, v, by simp, ?_, h3⟩
            rw [List.reverse_cons, TM_append] at h1 ⊢
            obtain ⟨s3, s4, rfl, h4, h5⟩ := h1
            refine ⟨s3, s4 ++ u, by simp, h4, ?_⟩
            simpa using TM.star (u := s4 ++ u) .nil
        · exact push
      · by_cases h2 : c = '?'
        · subst h2
          rw [tokLoop]; simp only [h1, if_false, if_true]
          apply single .dot rest hlen htail
          intro s2
          constructor
          · intro h; cases h with
            | any h => exact ⟨_, _, rfl, rfl, h⟩
            | lit _ h => exact absurd rfl h
          · rintro ⟨x, v, rfl, _, h⟩; exact .any h
        · by_cases h3 : c = '['
          · subst h3
            have fc := findClose_spec rest
            rw [tokLoop]; simp only [h1, h2, if_false, if_true]
            split
            · rename_i hnone
              apply single (.lit '[') rest hlen htail
              intro s2
              constructor
              · intro h; cases h with
                | set hb _ _ => exact absurd hb (fc.2 hnone _ _ _ _ rfl)
                | unclosed _ h => exact ⟨_, _, rfl, by simp [Cls.has], h⟩
                | lit _ _ h => exact absurd rfl h
              · rintro ⟨x, v, rfl, hx, h⟩
                have : '[' = x := by simpa [Cls.has] using hx
                subst this
                exact .unclosed (fc.2 hnone) h
            · rename_i b r hsome
              obtain ⟨hrest, neg, body, hbt⟩ := fc.1 b r hsome
              have hlt := findClose_length hsome
              apply single (bracket b) r (by omega)
              · subst hrest
                have : Sane (('[' :: b ++ [']']) ++ r) := by simpa using hs
                exact sane_suffix this
              · intro s2
                have hclass : ∀ x, (bracket b).has x = true ↔ (InClass body x ↔ neg = false) := by
                  intro x
                  cases hbt with
                  | pos e f g =>
                    rw [bracket_pos b g (hs [] b r (by rw [hrest]; rfl) (.pos e f g)), hasIn_iff]
                    simp
                  | neg e f =>
                    rw [bracket_neg, Bool.not_eq_true', ← Bool.not_eq_true, hasIn_iff]
                    simp
                constructor
                · intro h
                  generalize hq : '[' :: rest = q at h
                  cases h with
                  | set hb hc hm =>
                    simp only [List.cons.injEq, true_and] at hq
                    have := bracketText_unique hbt hb (by rw [← hrest, hq])
                    obtain ⟨rfl, rfl, rfl, rfl⟩ := this
                    exact ⟨_, _, rfl, (hclass _).2 hc, hm⟩
                  | unclosed hno _ =>
                    simp only [List.cons.injEq, true_and] at hq
                    subst hq
                    exact absurd hbt (hno _ _ _ _ hrest)
                  | lit _ _ h =>
                    simp only [List.cons.injEq] at hq
                    exact absurd hq.1.symm h
                  | nil => simp at hq
                  | star => simp at hq
                  | any => simp at hq
                · rintro ⟨x, v, rfl, hx, h⟩
                  rw [hrest]
                  exact .set hbt ((hclass x).1 hx) h
          · rw [tokLoop]; simp only [h1, h2, h3, if_false]
            apply single (.lit c) rest hlen htail
            intro s2
            constructor
            · intro h
              cases h with
              | lit _ _ _ h => exact ⟨_, _, rfl, by simp [Cls.has], h⟩
              | star => simp at h1
              | any => simp at h2
              | set => simp at h3
              | unclosed => simp at h3
            · rintro ⟨x, v, rfl, hx, h⟩
              have : c = x := by simpa [Cls.has] using hx
              subst this
              exact .lit h1 h2 h3 h

theorem fnmatchcase_iff (name pat : String) (hs : Sane pat.toList) :
    fnmatchcase name pat = true ↔ Matches pat.toList name.toList := by
  unfold fnmatchcase
  rw [build_iff, tokLoop_iff _ pat.toList [] name.toList (Nat.le_refl _) hs]
  constructor
  · rintro ⟨s1, s2, h, h1, h2⟩; cases h1; rw [h]; exact h2
  · intro h; exact ⟨[], _, rfl, .nil, h⟩

end Acltk.Fnmatch
