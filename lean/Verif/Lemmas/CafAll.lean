import Verif.Lemmas.CafSyn
import Verif.Lemmas.CafInv
import Verif.Spec.CafAllSpec
/-!
# Filters of every accepted shape
-/
namespace Acltk
namespace Caf
open Acltk.CafText (ChainOf SetOf ItemsOf NetworkWords NetworkWord)

theorem networkWord_caf {w : List Char} {h : Host} (e : NetworkWord w h) : CafHost h := by
  cases e <;> constructor

theorem networkWords_caf {l : List Host} {ws : List CafText.Word} (e : NetworkWords l ws) : l ≠ [] ∧ ∀ h ∈ l, CafHost h := by
  induction e with
  | one h w hw => exact ⟨by simp, by intro x hx; simp at hx; subst hx; exact networkWord_caf hw⟩
  | cons h w hs ws hw _ ih =>
    refine ⟨by simp, ?_⟩
    intro x hx
    rcases List.mem_cons.1 hx with rfl | hx
    · exact networkWord_caf hw
    · exact ih.2 x hx

/-- The parentheses and the clauses among the objects of a set. -/
def blocks : List SetObj → Nat
  | [] => 0
  | .block _ :: l => blocks l + 1
  | _ :: l => blocks l
def ips : List SetObj → Nat
  | [] => 0
  | .ip _ _ :: l => ips l + 1
  | _ :: l => ips l

theorem blocks_noComments (l : List SetObj) : blocks (noComments l) = blocks l := by
  induction l with
  | nil => rfl
  | cons o l ih => cases o <;> simp_all [noComments, blocks]

theorem ips_noComments (l : List SetObj) : ips (noComments l) = ips l := by
  induction l with
  | nil => rfl
  | cons o l ih => cases o <;> simp_all [noComments, ips]

theorem collect_noBlocks : ∀ {l : List SetObj} {x : List (Dir × Host)}, collectIps l = .ok x → blocks l = 0
  | [], _, _ => rfl
  | .comment :: l, x, h => collect_noBlocks (l := l) (x := x) (by simpa [collectIps] using h)
  | .block _ :: _, _, h => by cases h
  | .ip d n :: l, x, h => by
    rw [collectIps] at h
    split at h
    · cases h
    · rename_i y hy; exact collect_noBlocks (l := l) hy

theorem setSem_shape {id : Option String} {l : List SetObj} {e : Expr} (h : setSem id l = .ok e) :
    blocks l = 0 ∨ (blocks l = 1 ∧ ips l = 0) := by
  rw [setSem_def] at h
  rw [← blocks_noComments, ← ips_noComments]
  split at h
  · rename_i e' h'; rw [h']; exact Or.inr ⟨rfl, rfl⟩
  · split at h
    · cases h
    · rename_i x hx; exact Or.inl (collect_noBlocks hx)

mutual
theorem chain_shape {P : Option String → Prop} {C : List Char → Prop} (c : Chain) {ws : List CafText.Word} (hw : ChainOf C c ws) (hp : ∀ i ∈ chainIds c, P i) {l : List Item}
    (h : chainItems c = .ok l) : ChainShape P c := by
  match c with
  | .one s =>
    rw [chainIds] at hp
    cases hw with
    | one _ _ hs =>
      rw [chainItems] at h
      rw [ChainShape]
      cases hv : setVal s with
      | error e => rw [hv] at h; cases h
      | ok e => exact set_shape s hs hp hv
  | .more s o c =>
    rw [chainIds] at hp
    cases hw with
    | more _ _ _ _ _ hs hc =>
      rw [chainItems] at h
      rw [ChainShape]
      cases hv : setVal s with
      | error e => rw [hv] at h; cases h
      | ok e =>
        rw [hv] at h
        cases hv' : chainItems c with
        | error e => simp only [hv'] at h; cases h
        | ok e => exact ⟨set_shape s hs (fun i hi => hp i (List.mem_append_left _ hi)) hv,
          chain_shape c hc (fun i hi => hp i (List.mem_append_right _ hi)) hv'⟩
theorem set_shape {P : Option String → Prop} {C : List Char → Prop} (s : SetSyn) {ws : List CafText.Word} (hw : SetOf C s ws) (hp : ∀ i ∈ setIds s, P i) {e : Expr}
    (h : setVal s = .ok e) : SetShape P s := by
  match s with
  | .mk id objs =>
    rw [setIds] at hp
    cases hw with
    | mk _ _ _ _ _ _ _ hi =>
      rw [setVal] at h
      rw [SetShape]
      cases hv : itemVals objs with
      | error e => rw [hv] at h; cases h
      | ok l =>
        rw [hv] at h
        obtain ⟨h1, h2, h3⟩ := items_shape objs hi (fun i hi => hp i (List.mem_cons_of_mem _ hi)) hv
        rw [← h2, ← h3]
        refine ⟨h1, ?_⟩
        rcases setSem_shape h with h | h
        · exact .inl ⟨h, hp _ List.mem_cons_self⟩
        · exact .inr h
theorem items_shape {P : Option String → Prop} {C : List Char → Prop} (i : Items) {ws : List CafText.Word} (hw : ItemsOf C i ws) (hp : ∀ j ∈ itemsIds i, P j) {l : List SetObj}
    (h : itemVals i = .ok l) : ItemsShape P i ∧ blocks l = numParens i ∧ ips l = numIps i := by
  match i with
  | .nil =>
    rw [itemVals] at h
    cases h
    exact ⟨by rw [ItemsShape]; trivial, rfl, rfl⟩
  | .comment r =>
    rw [itemsIds] at hp
    cases hw with
    | comment _ _ _ _ hr =>
      rw [itemVals] at h
      cases hv : itemVals r with
      | error e => rw [hv] at h; cases h
      | ok l' =>
        rw [hv] at h
        cases h
        obtain ⟨h1, h2, h3⟩ := items_shape r hr hp hv
        exact ⟨by rw [ItemsShape]; exact h1, h2, h3⟩
  | .ip d nets r =>
    rw [itemsIds] at hp
    cases hw with
    | ip _ _ _ _ _ hn hr =>
      rw [itemVals] at h
      cases hv : itemVals r with
      | error e => rw [hv] at h; cases h
      | ok l' =>
        rw [hv] at h
        cases h
        obtain ⟨h1, h2, h3⟩ := items_shape r hr hp hv
        obtain ⟨n1, n2⟩ := networkWords_caf hn
        exact ⟨by rw [ItemsShape]; exact ⟨n1, n2, h1⟩, h2, by simp [ips, numIps, h3]⟩
  | .paren c r =>
    rw [itemsIds] at hp
    cases hw with
    | paren _ _ _ _ hc hr =>
      rw [itemVals] at h
      cases hv : chainItems c with
      | error e => rw [hv] at h; cases h
      | ok items =>
        simp only [hv] at h
        cases he : exprSem items with
        | error e => simp only [he] at h; cases h
        | ok e =>
          simp only [he] at h
          cases hv' : itemVals r with
          | error e => simp only [hv'] at h; cases h
          | ok l' =>
            simp only [hv'] at h
            cases h
            obtain ⟨h1, h2, h3⟩ := items_shape r hr (fun i hi => hp i (List.mem_append_right _ hi)) hv'
            exact ⟨by rw [ItemsShape]; exact ⟨chain_shape c hc (fun i hi => hp i (List.mem_append_left _ hi)) hv, h1⟩, by simp [blocks, numParens, h2], h3⟩
end

theorem parsed_shape {P : Option String → Prop} {C : List Char → Prop} {c : Chain} {ws : List CafText.Word} (hw : ChainOf C c ws) (hp : ∀ i ∈ chainIds c, P i) {e : Expr}
    (h : parsed c = .ok e) : ChainShape P c := by
  unfold parsed at h
  cases hv : chainItems c with
  | error x => rw [hv] at h; cases h
  | ok l => exact chain_shape c hw hp hv

/-! ## running -/

/-- The boolean reading of an expression with the comparison of ids as the program makes it. -/
def SelM : Expr → Entry → Prop
  | .rule f, .rule r => idCompat f.id r.id = true ∧ Hit f.src.host r.src.host ∧ Hit f.dst.host r.dst.host
  | .rule f, .nat n => Selects f.id (Hit f.src.host) (Hit f.dst.host) (.nat n)
  | .block e, x => SelM e x
  | .op .union a b, x => SelM a x ∨ SelM b x
  | .op .intersect a b, x => SelM a x ∧ SelM b x
  | .op .except a b, x => SelM a x ∧ ¬ SelM b x

theorem selM_sel {e : Expr} (hf : ∀ f, RuleIn f e → SaneId f.id) {x : Entry} (hx : SaneEntry x) : SelM e x ↔ Sel e x := by
  induction e with
  | rule f =>
    have := hf f .rule
    cases x with
    | rule r => simp only [SelM, Sel, Selects]; rw [idCompat_iff _ _ this hx]
    | nat n => simp only [SelM, Sel]
  | block e ih => exact ih fun f h => hf f (.block h)
  | op o a b iha ihb =>
    have iha := iha fun f h => hf f (.opl h)
    have ihb := ihb fun f h => hf f (.opr h)
    cases o <;> simp only [SelM, Sel, iha, ihb]

theorem ruleAnd_total {K D fuel : Nat} {f : Rule} (hf : LeafRule (fun _ => True) K f) {x : Entry} (hx : BothSides x)
    (hd : EntryDepth D x) (hfuel : K + D + 4 ≤ fuel) :
    ∃ b, ruleAnd fuel f x = .ok b ∧ (b = true ↔ SelM (.rule f) x) := by
  cases x with
  | rule r =>
    obtain ⟨g, rfl⟩ : ∃ g, fuel = g + 2 := ⟨fuel - 2, by omega⟩
    obtain ⟨-, w1, w2, d1, d2⟩ := hf
    obtain ⟨e1, e2⟩ := hd
    have h1 := hit_ok (b := r.src.host) (fuel := g) w1 (by omega)
    have h2 := hit_ok (b := r.dst.host) (fuel := g) w2 (by omega)
    simp only [ruleAnd, SelM, nodeAnd]
    split
    · rename_i h
      obtain ⟨b, h3, h4⟩ := pyAnd_ok h1 h2
      exact ⟨b, h3, by rw [h4]; simp [h]⟩
    · rename_i h
      exact ⟨false, rfl, by simp [h]⟩
  | nat n =>
    have hn : FilterRule K { f with id := none } := ⟨saneId_none, hf.2⟩
    obtain ⟨b, h1, h2⟩ := ruleAnd_sel (x := .nat n) hn hx hd hfuel
    obtain ⟨g, rfl⟩ : ∃ g, fuel = g + 2 := ⟨fuel - 2, by omega⟩
    refine ⟨b, ?_, ?_⟩
    · rw [← h1]
      rfl
    · rw [h2]; rfl

theorem run_total {K D : Nat} {heap : Oid → Entry} {rules : List Oid}
    (hx : ∀ o ∈ rules, BothSides (heap o)) (hd : ∀ o ∈ rules, EntryDepth D (heap o)) :
    ∀ {e : Expr}, Runnable e → (∀ f, RuleIn f e → LeafRule (fun _ => True) K f) →
    ∀ {fuel}, e.height + K + D + 5 ≤ fuel →
    ∃ r, run fuel heap rules e = .ok r ∧ r.Nodup ∧ ∀ o, o ∈ r ↔ o ∈ rules ∧ SelM e (heap o) := by
  intro e he
  induction he with
  | @leaf f =>
    intro hf fuel hfuel
    have hK := hf f (.block .rule)
    simp only [Expr.height] at hfuel
    obtain ⟨g, rfl⟩ : ∃ g, fuel = g + 2 := ⟨fuel - 2, by omega⟩
    have hs : ∀ o ∈ rules, ∃ b, ruleAnd g f (heap o) = .ok b ∧ (b = true ↔ SelM (.rule f) (heap o)) :=
      fun o ho => ruleAnd_total hK (hx o ho) (hd o ho) (by omega)
    obtain ⟨r, hr⟩ := filterLoop_total (fuel := g) (heap := heap) (target := [f]) (rules := rules) (r := [])
      (by intro o ho t ht; simp at ht; subst ht; obtain ⟨b, hb, _⟩ := hs o ho; exact ⟨b, hb⟩)
    obtain ⟨h1, h2⟩ := filterLoop_spec hr (by simp)
    refine ⟨r, hr, h1, fun o => ?_⟩
    rw [h2]
    simp only [List.not_mem_nil, false_or, List.mem_cons, or_false, exists_eq_left]
    constructor
    · rintro ⟨ho, h⟩
      obtain ⟨b, hb, hp⟩ := hs o ho
      rw [hb] at h
      exact ⟨ho, hp.1 (by simpa using h)⟩
    · rintro ⟨ho, h⟩
      obtain ⟨b, hb, hp⟩ := hs o ho
      exact ⟨ho, by rw [hb, hp.2 h]⟩
  | @block e he ih =>
    intro hf fuel hfuel
    simp only [Expr.height] at hfuel
    obtain ⟨g, rfl⟩ : ∃ g, fuel = g + 1 := ⟨fuel - 1, by omega⟩
    rw [run_block he.not_rule]
    exact ih (fun f h => hf f (.block h)) (by omega)
  | @op o a b ha hb iha ihb =>
    intro hf fuel hfuel
    simp only [Expr.height] at hfuel
    obtain ⟨g, rfl⟩ : ∃ g, fuel = g + 1 := ⟨fuel - 1, by omega⟩
    obtain ⟨ra, e1, n1, m1⟩ := iha (fun f h => hf f (.opl h)) (fuel := g) (by omega)
    obtain ⟨rb, e2, n2, m2⟩ := ihb (fun f h => hf f (.opr h)) (fuel := g) (by omega)
    simp only [run, e1, e2]
    cases o with
    | union =>
      refine ⟨_, rfl, nodup_setUnion n1, fun o => ?_⟩
      rw [mem_setUnion, m1, m2]; simp only [SelM]
      constructor
      · rintro (⟨h, h'⟩ | ⟨h, h'⟩)
        · exact ⟨h, .inl h'⟩
        · exact ⟨h, .inr h'⟩
      · rintro ⟨h, h' | h'⟩
        · exact .inl ⟨h, h'⟩
        · exact .inr ⟨h, h'⟩
    | intersect =>
      refine ⟨_, rfl, List.Pairwise.filter _ n1, fun o => ?_⟩
      rw [mem_setInter, m1, m2]; simp only [SelM]
      constructor
      · rintro ⟨⟨h, h1⟩, _, h2⟩; exact ⟨h, h1, h2⟩
      · rintro ⟨h, h1, h2⟩; exact ⟨⟨h, h1⟩, h, h2⟩
    | except =>
      refine ⟨_, rfl, List.Pairwise.filter _ n1, fun o => ?_⟩
      rw [mem_setDiff, m1, m2]; simp only [SelM]
      constructor
      · rintro ⟨⟨h, h1⟩, h2⟩; exact ⟨h, h1, fun h3 => h2 ⟨h, h3⟩⟩
      · rintro ⟨h, h1, h2⟩; exact ⟨⟨h, h1⟩, fun h3 => h2 h3.2⟩

/-- Whatever filter the semantic actions accept, it can be run; what it selects is what it means, as far as ids are no patterns
with degenerate brackets. -/
theorem accepted_run {C : List Char → Prop} {c : Chain} {ws : List CafText.Word} (hw : ChainOf C c ws) {e : Expr}
    (h : parsed c = .ok e) : ∃ W : Entry → Prop, ((∀ i ∈ chainIds c, SaneId i) → ∀ x, SaneEntry x → (W x ↔ Meaning c x)) ∧
      ∀ (heap : Oid → Entry) (rules : List Oid) (D fuel : Nat),
        (∀ o ∈ rules, BothSides (heap o)) → (∀ o ∈ rules, EntryDepth D (heap o)) → e.height + 3 + D + 5 ≤ fuel →
        ∃ r, run fuel heap rules e = .ok r ∧ r.Nodup ∧ ∀ o, o ∈ r ↔ o ∈ rules ∧ W (heap o) := by
  obtain ⟨e', h1, h2, h3, -⟩ := parsed_shaped c (parsed_shape (P := fun _ => True) hw (fun _ _ => trivial) h)
  rw [h] at h1
  cases h1
  refine ⟨SelM e, ?_, ?_⟩
  · intro hs x hx
    obtain ⟨e', i1, -, i3, i4⟩ := parsed_shaped c (parsed_shape (P := SaneId) hw hs h)
    rw [h] at i1
    cases i1
    rw [← i4]
    exact selM_sel (fun f hf => (i3 f hf).1) hx
  · intro heap rules D fuel hb hd hf
    exact run_total hb hd h2 h3 hf

end Caf
end Acltk
