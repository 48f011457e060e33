import Verif.Spec.CafSpec
import Verif.Lemmas.Rule
namespace Acltk

theorem meet_mono_le {a b : Host} {r : Bool} {n m : Nat} (h : meet n a b = .ok r) (hle : n ≤ m) :
    meet m a b = .ok r := by
  obtain ⟨k, rfl⟩ := Nat.exists_eq_add_of_le hle
  induction k with
  | zero => exact h
  | succ k ih => exact meet_mono _ (ih (by omega))

theorem hit_iff {a b : Host} {r : Bool} {fuel : Nat} (h : meet fuel a b = .ok r) : r = true ↔ Hit a b := by
  constructor
  · intro e; subst e; exact ⟨fuel, h⟩
  · rintro ⟨f, hf⟩
    have h1 := meet_mono_le h (Nat.le_max_left fuel f)
    have h2 := meet_mono_le hf (Nat.le_max_right fuel f)
    rw [h1] at h2; simpa using h2

theorem hit_ok {a b : Host} {fuel : Nat} (w : ¬ HasWild a) (hf : a.depth + b.depth + 1 ≤ fuel) :
    ∃ r, meet fuel a b = .ok r ∧ (r = true ↔ Hit a b) := by
  obtain ⟨r, hr⟩ := meet_total (a := a) (b := b) fuel (fun h => w h.1) hf
  exact ⟨r, hr, hit_iff hr⟩

theorem pyAnd_ok {x y : Py Bool} {P Q : Prop} (hx : ∃ r, x = .ok r ∧ (r = true ↔ P))
    (hy : ∃ r, y = .ok r ∧ (r = true ↔ Q)) : ∃ r, pyAnd x y = .ok r ∧ (r = true ↔ P ∧ Q) := by
  obtain ⟨b, rfl, h1⟩ := hx; obtain ⟨c, rfl, h2⟩ := hy
  cases b
  · refine ⟨false, rfl, ?_⟩; simp at h1; simp [h1]
  · refine ⟨c, rfl, ?_⟩; simp at h1; simp [h1, h2]

theorem natSide_sel {K D fuel : Nat} {f : Rule} (hf : Caf.FilterRule K f) {s : NatSide}
    (hd : ∀ h, s.src = some (some h) ∨ s.dst = some (some h) → h.depth ≤ D) (hfuel : K + D + 2 ≤ fuel) :
    ∃ b, natSideAnd fuel f (some s) = .ok b ∧ (b = true ↔ SideHit (Hit f.src.host) (Hit f.dst.host) s) := by
  obtain ⟨_, w1, w2, d1, d2⟩ := hf
  obtain ⟨g, rfl⟩ : ∃ g, fuel = g + 1 := ⟨fuel - 1, by omega⟩
  have hs : ∀ h, s.src = some (some h) → ∃ b, meet g f.src.host h = .ok b ∧ (b = true ↔ Hit f.src.host h) :=
    fun h e => hit_ok w1 (by have := hd h (.inl e); omega)
  have hdst : ∀ h, s.dst = some (some h) → ∃ b, meet g f.dst.host h = .ok b ∧ (b = true ↔ Hit f.dst.host h) :=
    fun h e => hit_ok w2 (by have := hd h (.inr e); omega)
  unfold natSideAnd SideHit
  obtain ⟨src, dst⟩ := s
  rcases src with _ | _ | s <;> rcases dst with _ | _ | d <;> simp only [Option.join, nodeAnd]
  · exact ⟨false, rfl, by simp⟩
  · exact ⟨false, rfl, by simp⟩
  · obtain ⟨b, h1, h2⟩ := hdst d rfl; exact ⟨b, h1, by simp [h2]⟩
  · exact ⟨false, rfl, by simp⟩
  · exact ⟨false, rfl, by simp⟩
  · obtain ⟨b, h1, h2⟩ := hdst d rfl; exact ⟨b, h1, by simp [h2]⟩
  · obtain ⟨b, h1, h2⟩ := hs s rfl; exact ⟨b, h1, by simp [h2]⟩
  · obtain ⟨b, h1, h2⟩ := hs s rfl; exact ⟨b, h1, by simp [h2]⟩
  · obtain ⟨b, h1, h2⟩ := pyAnd_ok (hs s rfl) (hdst d rfl); exact ⟨b, h1, by simp [h2]⟩

theorem ruleAnd_sel {K D fuel : Nat} {f : Rule} (hf : Caf.FilterRule K f) {x : Entry} (hx : EntryOk x)
    (hd : EntryDepth D x) (hfuel : K + D + 4 ≤ fuel) :
    ∃ b, ruleAnd fuel f x = .ok b ∧ (b = true ↔ Selects f.id (Hit f.src.host) (Hit f.dst.host) x) := by
  cases x with
  | rule r =>
    obtain ⟨g, rfl⟩ : ∃ g, fuel = g + 2 := ⟨fuel - 2, by omega⟩
    obtain ⟨si, w1, w2, d1, d2⟩ := hf
    obtain ⟨e1, e2⟩ := hd
    have h1 := hit_ok (b := r.src.host) (fuel := g) w1 (by omega)
    have h2 := hit_ok (b := r.dst.host) (fuel := g) w2 (by omega)
    simp only [ruleAnd, Selects, nodeAnd]
    split
    · rename_i h
      obtain ⟨b, h3, h4⟩ := pyAnd_ok h1 h2
      exact ⟨b, h3, by rw [h4]; simp [(idCompat_iff _ _ si hx).1 h]⟩
    · rename_i h
      refine ⟨false, rfl, ?_⟩
      have : ¬ IdsCompatible f.id r.id := fun h' => h ((idCompat_iff _ _ si hx).2 h')
      simp [this]
  | nat n =>
    obtain ⟨g, rfl⟩ : ∃ g, fuel = g + 2 := ⟨fuel - 2, by omega⟩
    obtain ⟨real, mapped, de, op⟩ := n
    obtain ⟨hr, hm⟩ := hx
    cases real with
    | none => simp at hr
    | some real =>
      cases mapped with
      | none => simp at hm
      | some mapped =>
        simp only [ruleAnd, natAnd]
        have k1 := natSide_sel (fuel := g) (D := D) (s := real) hf (fun h e => hd real (.inl rfl) h e) (by omega)
        have k2 := natSide_sel (fuel := g) (D := D) (s := mapped) hf (fun h e => hd mapped (.inr rfl) h e) (by omega)
        obtain ⟨b1, h1, p1⟩ := k1; obtain ⟨b2, h2, p2⟩ := k2
        have : loopAny (natSideAnd g f) [some real, some mapped] = .ok (b1 || b2) := by
          simp only [loopAny, h1]
          cases b1
          · simp only [h2]; cases b2 <;> rfl
          · rfl
        refine ⟨_, this, ?_⟩
        simp [Selects, p1, p2]

namespace Caf

theorem run_block {fuel heap rules e} (h : ∀ r, e ≠ .rule r) :
    run (fuel + 1) heap rules (.block e) = run fuel heap rules e := by
  cases e with
  | rule r => exact absurd rfl (h r)
  | block e => simp [run]
  | op o a b => simp [run]

theorem Runnable.not_rule {e} (h : Runnable e) : ∀ r, e ≠ .rule r := by
  intro r; cases h <;> simp

theorem run_spec {K D : Nat} {heap : Oid → Entry} {rules : List Oid}
    (hx : ∀ o ∈ rules, EntryOk (heap o)) (hd : ∀ o ∈ rules, EntryDepth D (heap o)) :
    ∀ {e : Expr}, Runnable e → (∀ f, RuleIn f e → FilterRule K f) →
    ∀ {fuel}, e.height + K + D + 5 ≤ fuel →
    ∃ r, run fuel heap rules e = .ok r ∧ r.Nodup ∧ ∀ o, o ∈ r ↔ o ∈ rules ∧ Sel e (heap o) := by
  intro e he
  induction he with
  | @leaf f =>
    intro hf fuel hfuel
    have hK := hf f (.block .rule)
    simp only [Expr.height] at hfuel
    obtain ⟨g, rfl⟩ : ∃ g, fuel = g + 2 := ⟨fuel - 2, by omega⟩
    have hs : ∀ o ∈ rules, ∃ b, ruleAnd g f (heap o) = .ok b ∧
        (b = true ↔ Selects f.id (Hit f.src.host) (Hit f.dst.host) (heap o)) :=
      fun o ho => ruleAnd_sel hK (hx o ho) (hd o ho) (by omega)
    obtain ⟨r, hr⟩ := filterLoop_total (fuel := g) (heap := heap) (target := [f]) (rules := rules) (r := [])
      (by intro o ho t ht; simp at ht; subst ht; obtain ⟨b, hb, _⟩ := hs o ho; exact ⟨b, hb⟩)
    obtain ⟨h1, h2⟩ := filterLoop_spec hr (by simp)
    refine ⟨r, hr, h1, fun o => ?_⟩
    rw [h2]
    simp only [List.not_mem_nil, false_or, List.mem_cons, or_false, exists_eq_left, Sel]
    constructor
    · rintro ⟨ho, h⟩
      obtain ⟨b, hb, hp⟩ := hs o ho
      rw [hb] at h
      exact ⟨ho, hp.1 (by simpa using h)⟩
    · rintro ⟨ho, h⟩
      obtain ⟨b, hb, hp⟩ := hs o ho
      exact ⟨ho, by rw [hb, hp.2 h]⟩
  | @block e he ih =>
    intro hf fuel hfuel
    simp only [Expr.height] at hfuel
    obtain ⟨g, rfl⟩ : ∃ g, fuel = g + 1 := ⟨fuel - 1, by omega⟩
    rw [run_block he.not_rule]
    exact ih (fun f h => hf f (.block h)) (by omega)
  | @op o a b ha hb iha ihb =>
    intro hf fuel hfuel
    simp only [Expr.height] at hfuel
    obtain ⟨g, rfl⟩ : ∃ g, fuel = g + 1 := ⟨fuel - 1, by omega⟩
    obtain ⟨ra, e1, n1, m1⟩ := iha (fun f h => hf f (.opl h)) (fuel := g) (by omega)
    obtain ⟨rb, e2, n2, m2⟩ := ihb (fun f h => hf f (.opr h)) (fuel := g) (by omega)
    simp only [run, e1, e2]
    cases o with
    | union =>
      refine ⟨_, rfl, nodup_setUnion n1, fun o => ?_⟩
      rw [mem_setUnion, m1, m2]; simp only [Sel]
      constructor
      · rintro (⟨h, h'⟩ | ⟨h, h'⟩)
        · exact ⟨h, .inl h'⟩
        · exact ⟨h, .inr h'⟩
      · rintro ⟨h, h' | h'⟩
        · exact .inl ⟨h, h'⟩
        · exact .inr ⟨h, h'⟩
    | intersect =>
      refine ⟨_, rfl, List.Pairwise.filter _ n1, fun o => ?_⟩
      rw [mem_setInter, m1, m2]; simp only [Sel]
      constructor
      · rintro ⟨⟨h, h1⟩, _, h2⟩; exact ⟨h, h1, h2⟩
      · rintro ⟨h, h1, h2⟩; exact ⟨⟨h, h1⟩, h, h2⟩
    | except =>
      refine ⟨_, rfl, List.Pairwise.filter _ n1, fun o => ?_⟩
      rw [mem_setDiff, m1, m2]; simp only [Sel]
      constructor
      · rintro ⟨⟨h, h1⟩, h2⟩; exact ⟨h, h1, fun h3 => h2 ⟨h, h3⟩⟩
      · rintro ⟨h, h1, h2⟩; exact ⟨⟨h, h1⟩, fun h3 => h2 h3.2⟩

/-! ## the list surgery of `expr` -/

/-- The tail of an alternating list. -/
def tail : List (Op × Expr) → List Item
  | [] => []
  | (o, b) :: l => .op o :: .set b :: tail l

theorem tail_append (l m : List (Op × Expr)) : tail (l ++ m) = tail l ++ tail m := by
  induction l with
  | nil => rfl
  | cons x l ih => obtain ⟨o, b⟩ := x; simp [tail, ih]

/-- What a while loop does to an alternating list. -/
def red (p : Op → Bool) : Expr → List (Op × Expr) → Expr × List (Op × Expr)
  | a, [] => (a, [])
  | a, (o, b) :: l => if p o then red p (mkOp o a b) l else (a, (o, (red p b l).1) :: (red p b l).2)

theorem reduceOnce_red (p : Op → Bool) : ∀ (l : List (Op × Expr)) (a : Expr),
    (reduceOnce p (.set a :: tail l) = none ∧ red p a l = (a, l)) ∨
    (∃ a' l', reduceOnce p (.set a :: tail l) = some (.set a' :: tail l') ∧ red p a' l' = red p a l ∧
      l'.length < l.length) := by
  intro l
  induction l with
  | nil => intro a; left; exact ⟨rfl, rfl⟩
  | cons x l ih =>
    obtain ⟨o, b⟩ := x
    intro a
    by_cases ho : p o = true
    · right
      refine ⟨mkOp o a b, l, ?_, ?_, by simp⟩
      · simp only [tail, reduceOnce, ho, if_true]
      · simp only [red, ho, if_true]
    · rcases ih b with ⟨h1, h2⟩ | ⟨a', l', h1, h2, h3⟩
      · left
        refine ⟨?_, ?_⟩
        · simp only [tail, reduceOnce, ho, h1]; simp
        · simp only [red, ho, h2]; simp
      · right
        refine ⟨a, (o, a') :: l', ?_, ?_, by simp; omega⟩
        · simp only [tail, reduceOnce, ho, h1]; simp
        · simp only [red, ho, h2]; simp

theorem reduceAll_red (p : Op → Bool) : ∀ (n : Nat) (l : List (Op × Expr)) (a : Expr), l.length ≤ n →
    reduceAll p (.set a :: tail l) = .set (red p a l).1 :: tail (red p a l).2 := by
  intro n
  induction n with
  | zero =>
    intro l a h
    have : l = [] := by simpa using h
    subst this
    rw [reduceAll]; rfl
  | succ n ih =>
    intro l a h
    rcases reduceOnce_red p l a with ⟨h1, h2⟩ | ⟨a', l', h1, h2, h3⟩
    · rw [reduceAll]
      split
      · rw [h2]
      · rename_i h'; rw [h1] at h'; cases h'
    · rw [reduceAll]
      split
      · rename_i h'; rw [h1] at h'; cases h'
      · rename_i l'' h'
        rw [h1] at h'; cases h'
        rw [ih l' a' (by omega), h2]

def isInter (o : Op) : Bool := o == .intersect
def isSum (o : Op) : Bool := o == .union || o == .except

theorem red_noInter : ∀ (l : List (Op × Expr)) (a : Expr), ∀ x ∈ (red isInter a l).2, x.1 ≠ .intersect := by
  intro l
  induction l with
  | nil => simp [red]
  | cons x l ih =>
    obtain ⟨o, b⟩ := x
    intro a
    by_cases ho : isInter o = true
    · simp only [red, ho, if_true]; exact ih _
    · simp only [red, ho]
      intro x hx
      rcases List.mem_cons.1 hx with rfl | hx
      · rintro rfl; exact ho rfl
      · exact ih _ _ hx

/-- Left fold of union/except. -/
def fold2 (c : Expr) (l : List (Op × Expr)) : Expr := l.foldl (fun c x => mkOp x.1 c x.2) c

theorem red_sum : ∀ (l : List (Op × Expr)) (a : Expr), (∀ x ∈ l, x.1 ≠ .intersect) →
    red isSum a l = (fold2 a l, []) := by
  intro l
  induction l with
  | nil => intros; rfl
  | cons x l ih =>
    obtain ⟨o, b⟩ := x
    intro a h
    have : isSum o = true := by have := h (o, b) (by simp); cases o <;> simp_all [isSum]
    simp only [red, this, if_true]
    rw [ih _ (fun x hx => h x (by simp [hx]))]
    rfl

theorem exprSem_eq (a : Expr) (l : List (Op × Expr)) :
    exprSem (.set a :: tail l) = .ok (fold2 (red isInter a l).1 (red isInter a l).2) := by
  unfold exprSem
  have h1 := reduceAll_red isInter l.length l a (Nat.le_refl _)
  have h2 := reduceAll_red isSum _ (red isInter a l).2 (red isInter a l).1 (Nat.le_refl _)
  rw [red_sum _ _ (red_noInter l a)] at h2
  show (match reduceAll isSum (reduceAll isInter (.set a :: tail l)) with
    | .set e :: _ => (.ok e : Py Expr)
    | .op _ :: _ => .error .type
    | [] => .error .index) = _
  rw [h1, h2]

theorem grouped_B : ∀ (l : List (Op × Expr)) {L c o m a}, Grouped L c → o ≠ .intersect → Term m a →
    Grouped (L ++ .op o :: (m ++ tail l)) (fold2 (mkOp o c (red isInter a l).1) (red isInter a l).2) := by
  intro l
  induction l with
  | nil => intro L c o m a h1 h2 h3; simp only [tail, List.append_nil, red, fold2, List.foldl_nil]; exact .snoc h1 h2 h3
  | cons x l ih =>
    obtain ⟨o', b⟩ := x
    intro L c o m a h1 h2 h3
    by_cases ho : isInter o' = true
    · have e : o' = .intersect := by simpa [isInter] using ho
      subst e
      simp only [red, ho, if_true]
      have := ih h1 h2 (.snoc (e := b) h3)
      simpa [tail] using this
    · simp only [red, ho]
      have e : o' ≠ .intersect := by rintro rfl; exact ho rfl
      have := ih (.snoc h1 h2 h3) e (.one (e := b))
      simpa [tail, fold2] using this

theorem grouped_A : ∀ (l : List (Op × Expr)) {m a}, Term m a →
    Grouped (m ++ tail l) (fold2 (red isInter a l).1 (red isInter a l).2) := by
  intro l
  induction l with
  | nil => intro m a h3; simp only [tail, List.append_nil, red, fold2, List.foldl_nil]; exact .term h3
  | cons x l ih =>
    obtain ⟨o', b⟩ := x
    intro m a h3
    by_cases ho : isInter o' = true
    · have e : o' = .intersect := by simpa [isInter] using ho
      subst e
      simp only [red, ho, if_true]
      have := ih (.snoc (e := b) h3)
      simpa [tail] using this
    · simp only [red, ho]
      have e : o' ≠ .intersect := by rintro rfl; exact ho rfl
      have := grouped_B l (.term h3) e (.one (e := b))
      simpa [tail, fold2] using this

theorem alternating_shape {l : List Item} (h : Alternating l) : ∃ a xs, l = .set a :: tail xs := by
  induction h with
  | one => exact ⟨_, [], rfl⟩
  | @cons e o l _ ih => obtain ⟨a, xs, rfl⟩ := ih; exact ⟨e, (o, a) :: xs, rfl⟩

theorem term_shape {l : List Item} {t : Expr} (h : Term l t) :
    ∃ (a : Expr) (xs : List Expr), l = .set a :: tail (xs.map (fun b => (.intersect, b))) ∧ t = xs.foldl (mkOp .intersect) a := by
  induction h with
  | one => exact ⟨_, [], rfl, rfl⟩
  | @snoc l t e _ ih =>
    obtain ⟨a, xs, rfl, rfl⟩ := ih
    refine ⟨a, xs ++ [e], ?_, by simp⟩
    rw [List.map_append, tail_append]; simp [tail]

theorem red_inter_all (xs : List Expr) : ∀ a, red isInter a (xs.map (fun b => (.intersect, b))) =
    (xs.foldl (mkOp .intersect) a, []) := by
  induction xs with
  | nil => intro a; rfl
  | cons x xs ih => intro a; simp only [List.map_cons, red, isInter]; simp; exact ih _

theorem red_append (o : Op) (ho : o ≠ .intersect) (b : Expr) (ys : List Expr) :
    ∀ (xs : List (Op × Expr)) (a : Expr),
    red isInter a (xs ++ (o, b) :: ys.map (fun b => (.intersect, b))) =
      ((red isInter a xs).1, (red isInter a xs).2 ++ [(o, ys.foldl (mkOp .intersect) b)]) := by
  have ho' : isInter o = false := by cases o <;> simp_all [isInter]
  intro xs
  induction xs with
  | nil => intro a; simp only [List.nil_append, red, ho', red_inter_all]; simp
  | cons x xs ih =>
    obtain ⟨o', c⟩ := x
    intro a
    by_cases h : isInter o' = true
    · simp only [List.cons_append, red, h, if_true]; exact ih _
    · simp only [List.cons_append, red, h]; simp [ih]

theorem grouped_shape {l : List Item} {c : Expr} (h : Grouped l c) :
    ∃ a xs, l = .set a :: tail xs ∧ c = fold2 (red isInter a xs).1 (red isInter a xs).2 := by
  induction h with
  | term h =>
    obtain ⟨a, xs, rfl, rfl⟩ := term_shape h
    exact ⟨a, _, rfl, by rw [red_inter_all]; rfl⟩
  | @snoc l c o m t _ ho hm ih =>
    obtain ⟨a, xs, rfl, rfl⟩ := ih
    obtain ⟨b, ys, rfl, rfl⟩ := term_shape hm
    refine ⟨a, xs ++ (o, b) :: ys.map (fun b => (.intersect, b)), ?_, ?_⟩
    · rw [tail_append]; simp [tail]
    · rw [red_append o ho]; simp [fold2]

end Caf
end Acltk
