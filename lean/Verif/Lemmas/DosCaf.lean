import Verif.Lemmas.DosTac
import Verif.Model.CafText
/-!
# Filter texts with other line ends
-/
namespace Acltk.Dos
open Acltk Acltk.Lookup Acltk.Peg Acltk.CafText

variable {ks : List String}

theorem skip_rel {t t' : Text} (h : Rel ks t t') : Rel ks (t.dropWhile isSpace) (t'.dropWhile isSpace) ∧
    ((t.dropWhile isSpace).length < t.length ↔ (t'.dropWhile isSpace).length < t'.length) := by
  obtain ⟨hg, h⟩ := h
  have le := fun u : Text => dropWhile_le isSpace u
  induction h with
  | done => exact ⟨⟨hg, .done⟩, Iff.rfl⟩
  | @char t t' c hc h ih =>
    have ih := ih hg.tail
    have l1 := le t; have l2 := le t'
    simp only [List.dropWhile_cons]
    split
    · simp only [List.length_cons]; exact ⟨ih.1, by omega⟩
    · exact ⟨⟨hg, .char c hc h⟩, by simp⟩
  | @unix t t' h ih =>
    have ih := ih hg.tail
    have l1 := le t; have l2 := le t'
    have e : isSpace '\n' = true := by decide
    simp only [List.dropWhile_cons, e, if_true, List.length_cons]
    exact ⟨ih.1, by omega⟩
  | @dos t t' h ih =>
    have ih := ih hg.tail
    have l1 := le t; have l2 := le t'
    have e : isSpace '\n' = true := by decide
    have e' : isSpace '\r' = true := by decide
    simp only [List.dropWhile_cons, e, e', if_true, List.length_cons]
    exact ⟨ih.1, by omega⟩

section
variable {α β : Type} {R : α → β → Prop} {p : P α} {p' : P β}

theorem Sim.skip {M : Mode} (hM : M = .strict ∨ M = .even) (h : Sim ks M R p p') : Sim ks M R (CafText.skip p) (CafText.skip p') := by
  intro t t' hr
  obtain ⟨h1, h2⟩ := skip_rel hr
  have h3 := h _ _ h1
  have l1 := dropWhile_le isSpace t
  have l2 := dropWhile_le isSpace t'
  unfold CafText.skip
  revert h3
  generalize p _ = x; generalize p' _ = y
  intro h3
  cases h3 with
  | fail => exact .fail
  | raise e => exact .raise e
  | ok a b c d e =>
    refine .ok a b (by omega) (by omega) ?_
    rcases hM with rfl | rfl <;> simp only [Moves] at * <;> omega

theorem Sim.skipS (h : Sim ks .strict R p p') : Sim ks .strict R (CafText.skip p) (CafText.skip p') := Sim.skip (.inl rfl) h
theorem Sim.skipE (h : Sim ks .even R p p') : Sim ks .even R (CafText.skip p) (CafText.skip p') := Sim.skip (.inr rfl) h
end

theorem scanBody_cons {c : Char} (hc : c ≠ '*') (t : Text) : Caf.scanBody (c :: t) = Caf.scanBody t := by
  rw [Caf.scanBody]
  · exact fun _ h _ => hc h
  · exact fun _ _ h _ => hc h
  · exact fun h _ => hc h

theorem scanBody_rel {t t' : Text} (h : Rel ks t t') : Rel ks (Caf.scanBody t) (Caf.scanBody t') ∧
    (Caf.scanBody t).length ≤ t.length ∧ (Caf.scanBody t').length ≤ t'.length := by
  induction hn : t.length using Nat.strongRecOn generalizing t t' with
  | _ n ih =>
    subst hn
    rcases h.cases_on with ⟨rfl, rfl⟩ | ⟨x, x', rfl, hx, rfl | rfl⟩ | ⟨c, x, x', h1, h2, rfl, rfl, hx⟩
    · exact ⟨h, Nat.le_refl _, Nat.le_refl _⟩
    · have := ih x.length (by simp) hx rfl
      rw [scanBody_cons (by decide), scanBody_cons (by decide), scanBody_cons (by decide)]
      simp only [List.length_cons]
      exact ⟨this.1, by omega, by omega⟩
    · have := ih x.length (by simp) hx rfl
      rw [scanBody_cons (by decide), scanBody_cons (by decide)]
      simp only [List.length_cons]
      exact ⟨this.1, by omega, by omega⟩
    · by_cases hc : c = '*'
      · subst hc
        rcases hx.cases_on with ⟨rfl, rfl⟩ | ⟨y, y', rfl, hy, rfl | rfl⟩ | ⟨d, y, y', h3, h4, rfl, rfl, hy⟩
        · exact ⟨h, by simp [Caf.scanBody], by simp [Caf.scanBody]⟩
        · have it := ih y.length (by simp; omega) hy rfl
          have e1 : Caf.scanBody ('*' :: '\n' :: y) = Caf.scanBody y := by simp [Caf.scanBody]
          have e2 : Caf.scanBody ('*' :: '\r' :: '\n' :: y') = Caf.scanBody y' := by simp [Caf.scanBody]
          rw [e1, e2]
          simp only [List.length_cons]
          exact ⟨it.1, by omega, by omega⟩
        · have it := ih y.length (by simp; omega) hy rfl
          have e1 : ∀ u : Text, Caf.scanBody ('*' :: '\n' :: u) = Caf.scanBody u := fun u => by simp [Caf.scanBody]
          rw [e1, e1]
          simp only [List.length_cons]
          exact ⟨it.1, by omega, by omega⟩
        · have it := ih y.length (by simp; omega) hy rfl
          by_cases hC : d = '/'
          · subst hC
            have e : ∀ u : Text, Caf.scanBody ('*' :: '/' :: u) = '*' :: '/' :: u := fun u => by rw [Caf.scanBody]
            rw [e, e]
            exact ⟨h, Nat.le_refl _, Nat.le_refl _⟩
          · have e : ∀ u : Text, Caf.scanBody ('*' :: d :: u) = Caf.scanBody u := fun u => by
              rw [Caf.scanBody]; exact fun h => hC h
            rw [e, e]
            simp only [List.length_cons]
            exact ⟨it.1, by omega, by omega⟩
      · have := ih x.length (by simp) hx rfl
        rw [scanBody_cons hc, scanBody_cons hc]
        simp only [List.length_cons]
        exact ⟨this.1, by omega, by omega⟩

/-- `comment` in terms of fixed beginnings. -/
theorem comment_eq (t : Text) : Caf.comment t = if "/*".toList.isPrefixOf t then
    (if "*/".toList.isPrefixOf (Caf.scanBody (t.drop 2)) then some ((Caf.scanBody (t.drop 2)).drop 2) else none) else none := by
  unfold Caf.comment
  split
  · rename_i r
    simp only [show "/*".toList.isPrefixOf ('/' :: '*' :: r) = true from by simp [List.isPrefixOf], if_true, List.drop_succ_cons, List.drop_zero]
    split
    · rename_i u h; rw [h]; simp [List.isPrefixOf]
    · rename_i h
      have : "*/".toList.isPrefixOf (Caf.scanBody r) = false := by
        cases hp : "*/".toList.isPrefixOf (Caf.scanBody r) with
        | false => rfl
        | true =>
          obtain ⟨u, hu⟩ := List.isPrefixOf_iff_prefix.1 hp
          exact absurd hu.symm (h u)
      rw [this]; rfl
  · rename_i h
    have : "/*".toList.isPrefixOf t = false := by
      cases hp : "/*".toList.isPrefixOf t with
      | false => rfl
      | true =>
        obtain ⟨u, hu⟩ := List.isPrefixOf_iff_prefix.1 hp
        exact absurd hu.symm (h u)
    rw [this]; rfl

theorem leaf_Acltk_CafText_commentP : Sim ks .strict Eq commentP commentP := by
  refine Sim.skipS (fun t t' hr => ?_)
  show SimR ks .strict Eq t t' (match Caf.comment t with | some r => .ok () r | none => .fail)
    (match Caf.comment t' with | some r => .ok () r | none => .fail)
  rw [comment_eq, comment_eq]
  obtain ⟨a1, a2⟩ := prefix_rel (s := "/*".toList) (by decide +kernel) hr
  rw [← a1]
  cases hp : "/*".toList.isPrefixOf t with
  | false => exact .fail
  | true =>
    obtain ⟨b1, b2⟩ := a2 hp
    have b2 := b2 (by decide)
    obtain ⟨c1, c2, c3⟩ := scanBody_rel b1
    obtain ⟨d1, d2⟩ := prefix_rel (s := "*/".toList) (by decide +kernel) c1
    simp only [if_true]
    change SimR ks .strict Eq t t' _ _
    have e : ("/*".toList).length = 2 := by decide
    rw [e] at b1 b2 c1 c2 c3 d1 d2
    rw [← d1]
    cases hq : "*/".toList.isPrefixOf (Caf.scanBody (t.drop 2)) with
    | false => exact .fail
    | true =>
      have f := d2 hq
      have e2 : ("*/".toList).length = 2 := by decide
      rw [e2] at f
      have f2 := f.2 (by decide)
      refine .ok rfl f.1 ?_ ?_ ⟨?_, ?_⟩ <;> omega

theorem leaf_Acltk_CafText_commentsP : Sim ks .strict Eq commentsP commentsP := by
  refine Sim.skipS ?_
  sim

section
variable {g : Guard}

theorem leaf_Acltk_CafText_key {s : String} (hg : NextChar g) (h : Plain s.toList ∧ s.toList ≠ []) :
    Sim ks .strict Eq (CafText.key g s) (CafText.key g s) := Sim.skipS (Sim.tok hg h)

theorem leaf_Acltk_CafText_opP (hg : NextChar g) : Sim ks .strict Eq (opP g) (opP g) := by
  refine Sim.skipS ?_
  sim

theorem leaf_Acltk_CafText_direction (hg : NextChar g) : Sim ks .strict Eq (direction g) (direction g) := by
  refine Sim.skipS ?_
  sim

theorem anyKeys_sim (hg : NextChar g) : ∀ l : List (String × Host), (∀ k ∈ l, Plain k.1.toList ∧ k.1.toList ≠ []) →
    Sim ks .strict Eq (alts (l.map (fun kh => do let _ ← CafText.key g kh.1; pure kh.2)))
      (alts (l.map (fun kh => do let _ ← CafText.key g kh.1; pure kh.2)))
  | [], _ => Sim.altsNil
  | k :: l, h => Sim.altsCons (Sim.bindSE (leaf_Acltk_CafText_key hg (h k (by simp))) (fun _ => Sim.pureE.toAny))
      (anyKeys_sim hg l (fun x hx => h x (by simp [hx])))

theorem ip4Re_sim : Sim ks .strict Eq (pat ip4Re) (pat ip4Re) :=
  Sim.patES (by simp only [ip4Re, NoEol, noEol_octet, Re.chr]; decide) rfl

theorem ip6Re_sim : Sim ks .strict Eq (pat ip6Re) (pat ip6Re) :=
  Sim.patES (by simp only [ip6Re, NoEol, Re.chr, Re.plus]; decide) rfl

theorem leaf_Acltk_CafText_network (hg : NextChar g) : Sim ks .strict Eq (network g) (network g) := by
  refine Sim.skipS (Sim.alt (anyKeys_sim hg _ (by decide +kernel)) ?_)
  refine Sim.bindSE (Sim.alt (Sim.skipS ip4Re_sim) (Sim.skipS ip6Re_sim)) (fun a => ?_)
  refine Sim.bindAE (Sim.optEq (M := .strict) ?_) (fun m => Sim.actEq.toAny)
  refine Sim.bindSE (leaf_Acltk_CafText_key hg (by decide +kernel)) (fun _ => ?_)
  exact (Sim.skipS Sim.intE).toAny

theorem leaf_Acltk_CafText_net (hg : NextChar g) : Sim ks .strict Eq (CafText.net g) (CafText.net g) := by
  refine Sim.skipS ?_
  sim

theorem leaf_Acltk_CafText_setIp (hg : NextChar g) : Sim ks .strict Eq (setIp g) (setIp g) := by
  refine Sim.skipS ?_
  sim

theorem leaf_Acltk_CafText_setId (hg : NextChar g) : Sim ks .strict Eq (setId g) (setId g) := by
  refine Sim.skipS (Sim.bindSE (leaf_Acltk_CafText_key hg (by decide +kernel)) (fun _ => ?_))
  exact (Sim.skipS (Sim.patES (by simp only [Re.plus, NoEol]; decide) rfl)).toAny

theorem setExpr_sim (hg : NextChar g) {p : P Caf.Expr} {M : Mode} (h : Sim ks M Eq p p) : Sim ks .strict Eq (setExpr g p) (setExpr g p) :=
  Sim.skipS (Sim.bindSE (leaf_Acltk_CafText_key hg (by decide +kernel)) (fun _ => Sim.bindAE h (fun _ =>
    Sim.bindAE (leaf_Acltk_CafText_key hg (by decide +kernel)) (fun _ => Sim.pureE.toAny))))

theorem setR_sim (hg : NextChar g) {p : P Caf.Expr} {M : Mode} (h : Sim ks M Eq p p) : Sim ks .strict Eq (setR g p) (setR g p) :=
  Sim.skipS (Sim.altsCons (leaf_Acltk_CafText_setIp hg) (Sim.altsCons (setExpr_sim hg h) (Sim.altsCons
    (Sim.bindSE leaf_Acltk_CafText_commentsP (fun _ => Sim.pureE.toAny)) Sim.altsNil)))

theorem setP_sim (hg : NextChar g) {p : P Caf.Expr} {M : Mode} (h : Sim ks M Eq p p) : Sim ks .even Eq (setP g p) (setP g p) :=
  Sim.skipE (Sim.bindEE (Sim.optEqE leaf_Acltk_CafText_commentsP.toEven) (fun _ =>
    Sim.bindEE (Sim.optEqE (leaf_Acltk_CafText_setId hg).toEven) (fun _ =>
      Sim.bindEE (Sim.manyEqS (setR_sim hg h)) (fun _ => Sim.actEq))))

theorem exprR_sim (hg : NextChar g) {p : P Caf.Expr} (h : Sim ks .even Eq p p) : ∀ n, Sim ks .even Eq (exprR g p n) (exprR g p n)
  | 0 => Sim.actEq
  | n + 1 => by
    unfold exprR
    refine Sim.skipE (Sim.bindEE h (fun x => Sim.bindEE (Sim.many1Eq ?_).toEven (fun l => Sim.pureE)))
    refine Sim.bindSE (leaf_Acltk_CafText_opP hg) (fun o => Sim.bindAE (M := .even) (Sim.alt (exprR_sim hg h n) ?_) (fun _ => Sim.pureE.toAny))
    exact Sim.bindEE h (fun _ => Sim.pureE)

theorem expr_sim (hg : NextChar g) : ∀ n, Sim ks .even Eq (CafText.expr g n) (CafText.expr g n)
  | 0 => Sim.actEq
  | n + 1 => by
    have h := setP_sim hg (expr_sim hg n)
    unfold CafText.expr
    exact Sim.skipE (Sim.alt (Sim.bindEE (exprR_sim hg h (n + 1)) (fun _ => Sim.actEq)) h)

/-- A filter text means the same whatever its line ends. -/
theorem cafParse_eq (hg : NextChar g) (n : Nat) {t t' : Text} (he : LineEnds t t') (h : '\r' ∉ t) :
    CafText.parse g n t' = CafText.parse g n t := by
  have h1 := expr_sim (ks := []) hg n t t' ⟨⟨h, by simp⟩, he⟩
  unfold CafText.parse
  revert h1
  generalize CafText.expr g n t = x; generalize CafText.expr g n t' = y
  intro h1
  cases h1 with
  | fail => rfl
  | raise e => rfl
  | @ok v v' r r' a b c d e =>
    subst a
    obtain ⟨h2, -⟩ := skip_rel b
    have : (r'.dropWhile isSpace = []) ↔ (r.dropWhile isSpace = []) := by
      rcases h2.cases_on with ⟨e1, e2⟩ | ⟨x, x', e1, -, e2 | e2⟩ | ⟨c, x, x', -, -, e1, e2, -⟩ <;> simp [e1, e2]
    simp only [this]
end

end Acltk.Dos
