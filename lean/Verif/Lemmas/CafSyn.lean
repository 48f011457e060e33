import Verif.Lemmas.Caf
namespace Acltk
namespace Caf

/-! ## hits of groups -/

theorem noWild_group {nm l} (h : ∀ a ∈ l, ¬ HasWild a) : ¬ HasWild (.group nm l) := by
  rintro ⟨a, w, hl⟩
  rw [leaf_group] at hl
  obtain ⟨x, hx, hl⟩ := hl
  exact h x hx ⟨a, w, hl⟩

theorem hit_group {nm : String} {l : List Host} {b : Host} (h : ∀ a ∈ l, ¬ HasWild a) :
    Hit (.group nm l) b ↔ ∃ a ∈ l, Hit a b := by
  have hd : (Host.group nm l).depth + b.depth + 1 ≤ (Host.depthList l + b.depth + 1) + 1 := by
    simp only [Host.depth]; omega
  generalize hg : Host.depthList l + b.depth + 1 = g at hd
  obtain ⟨r, hr, hp⟩ := hit_ok (noWild_group (nm := nm) h) hd
  rw [← hp]
  simp only [meet] at hr
  rw [loopAny_true hr]
  constructor
  · rintro ⟨x, hx, h⟩; exact ⟨x, hx, _, h⟩
  · rintro ⟨x, hx, hh⟩
    refine ⟨x, hx, ?_⟩
    obtain ⟨r', hr', hp'⟩ := hit_ok (b := b) (h x hx) (Nat.le_refl (x.depth + b.depth + 1))
    rw [hp'.2 hh] at hr'
    have := depth_mem hx
    exact meet_mono_le hr' (by omega)

theorem CafHost.noWild {h : Host} (hc : CafHost h) : ¬ HasWild h := by
  rintro ⟨a, w, hl⟩; cases hc <;> cases hl

theorem CafHost.depth {h : Host} (hc : CafHost h) : h.depth = 1 := by cases hc <;> rfl

theorem depthList_le {l : List Host} {n : Nat} (h : ∀ a ∈ l, a.depth ≤ n) : Host.depthList l ≤ n := by
  induction l with
  | nil => simp [Host.depthList]
  | cons x l ih =>
    simp only [Host.depthList]
    have := h x (by simp)
    have := ih (fun a ha => h a (by simp [ha]))
    omega

theorem netSem_ok {l : List Host} (hc : ∀ h ∈ l, CafHost h) (hne : l ≠ []) :
    ¬ HasWild (netSem l) ∧ (netSem l).depth ≤ 2 ∧ ∀ b, Hit (netSem l) b ↔ ∃ a ∈ l, Hit a b := by
  match l, hne with
  | [h], _ =>
    have := hc h (by simp)
    refine ⟨this.noWild, ?_, fun b => by simp [netSem]⟩
    show h.depth ≤ 2
    rw [this.depth]; omega
  | x :: y :: l, _ =>
    have w : ∀ a ∈ x :: y :: l, ¬ HasWild a := fun a ha => (hc a ha).noWild
    refine ⟨noWild_group w, ?_, fun b => hit_group w⟩
    show 1 + Host.depthList (x :: y :: l) ≤ 2
    have := depthList_le (l := x :: y :: l) (n := 1) (fun a ha => by rw [(hc a ha).depth]; omega)
    omega

/-- The host built for a list of clauses. -/
def nodeOf : List Host → Host
  | [] => .any
  | [h] => h
  | l => .group "" l

theorem dirNode_eq (d : Dir) (ips : List (Dir × Host)) :
    dirNode d ips = nodeOf ((ips.filter (fun i => i.1 == d)).map (·.2)) := by
  unfold dirNode nodeOf; rfl

theorem nodeOf_ok {N : List (List Host)} (hc : ∀ n ∈ N, n ≠ [] ∧ ∀ h ∈ n, CafHost h) :
    ¬ HasWild (nodeOf (N.map netSem)) ∧ (nodeOf (N.map netSem)).depth ≤ 3 ∧
    ∀ b, Hit (nodeOf (N.map netSem)) b ↔ DirCond N.flatten b := by
  have hn : ∀ n ∈ N, _ := fun n hn => netSem_ok (hc n hn).2 (hc n hn).1
  match N with
  | [] =>
    refine ⟨?_, by show 1 ≤ 3; omega, fun b => ?_⟩
    · rintro ⟨a, w, hl⟩; cases hl
    · constructor
      · intro; left; rfl
      · intro; exact ⟨1, rfl⟩
  | [n] =>
    obtain ⟨h1, h2, h3⟩ := hn n (by simp)
    refine ⟨h1, by show (netSem n).depth ≤ 3; omega, fun b => ?_⟩
    show Hit (netSem n) b ↔ _
    rw [h3]; unfold DirCond
    simp only [List.flatten_cons, List.flatten_nil, List.append_nil]
    constructor
    · exact .inr
    · rintro (h | h)
      · exact absurd h (hc n (by simp)).1
      · exact h
  | n :: m :: N =>
    have w : ∀ a ∈ (n :: m :: N).map netSem, ¬ HasWild a := by
      intro a ha; rw [List.mem_map] at ha; obtain ⟨x, hx, rfl⟩ := ha; exact (hn x hx).1
    refine ⟨noWild_group w, ?_, fun b => ?_⟩
    · show 1 + Host.depthList ((n :: m :: N).map netSem) ≤ 3
      have := depthList_le (l := (n :: m :: N).map netSem) (n := 2) (by
        intro a ha; rw [List.mem_map] at ha; obtain ⟨x, hx, rfl⟩ := ha; exact (hn x hx).2.1)
      omega
    · show Hit (.group "" ((n :: m :: N).map netSem)) b ↔ _
      rw [hit_group w]
      unfold DirCond
      constructor
      · rintro ⟨a, ha, h⟩
        rw [List.mem_map] at ha; obtain ⟨x, hx, rfl⟩ := ha
        rw [(hn x hx).2.2] at h
        obtain ⟨y, hy, h⟩ := h
        exact .inr ⟨y, List.mem_flatten.2 ⟨x, hx, hy⟩, h⟩
      · rintro (h | ⟨y, hy, h⟩)
        · exfalso
          rw [List.flatten_cons, List.append_eq_nil_iff] at h
          exact (hc n (by simp)).1 h.1
        · obtain ⟨x, hx, hy⟩ := List.mem_flatten.1 hy
          exact ⟨netSem x, List.mem_map_of_mem hx, (hn x hx).2.2 b |>.2 ⟨y, hy, h⟩⟩

/-- The clauses of one direction. -/
def clauses (d : Dir) : Items → List (List Host)
  | .nil => []
  | .comment r => clauses d r
  | .ip d' nets r => if d' = d then nets :: clauses d r else clauses d r
  | .paren _ r => clauses d r

theorem clauses_flatten (d : Dir) (i : Items) : (clauses d i).flatten = addrs d i := by
  match i with
  | .nil => rfl
  | .comment r => exact clauses_flatten d r
  | .ip d' nets r =>
    simp only [clauses, addrs]
    split
    · rw [List.flatten_cons, clauses_flatten d r]
    · rw [clauses_flatten d r]; simp
  | .paren _ r => exact clauses_flatten d r

mutual
/-- What the grammar and the semantic actions let pass; the ids that count satisfy `P`. -/
def ChainShape (P : Option String → Prop) : Chain → Prop
  | .one s => SetShape P s
  | .more s _ rest => SetShape P s ∧ ChainShape P rest
def SetShape (P : Option String → Prop) : SetSyn → Prop
  | .mk id objs => ItemsShape P objs ∧ ((numParens objs = 0 ∧ P id) ∨ (numParens objs = 1 ∧ numIps objs = 0))
def ItemsShape (P : Option String → Prop) : Items → Prop
  | .nil => True
  | .comment r => ItemsShape P r
  | .ip _ nets r => nets ≠ [] ∧ (∀ h ∈ nets, CafHost h) ∧ ItemsShape P r
  | .paren c r => ChainShape P c ∧ ItemsShape P r
end

mutual
theorem chainOk_shape (c : Chain) (h : ChainOk c) : ChainShape SaneId c := by
  match c with
  | .one s => rw [ChainOk] at h; rw [ChainShape]; exact setOk_shape s h
  | .more s _ c => rw [ChainOk] at h; rw [ChainShape]; exact ⟨setOk_shape s h.1, chainOk_shape c h.2⟩
theorem setOk_shape (s : SetSyn) (h : SetOk s) : SetShape SaneId s := by
  match s with
  | .mk id objs =>
    rw [SetOk] at h; rw [SetShape]
    refine ⟨itemsOk_shape objs h.1, ?_⟩
    rcases h.2.2 with hp | ⟨hp, hn, -⟩
    · exact .inl ⟨hp, h.2.1⟩
    · exact .inr ⟨hp, hn⟩
theorem itemsOk_shape (i : Items) (h : ItemsOk i) : ItemsShape SaneId i := by
  match i with
  | .nil => rw [ItemsShape]; trivial
  | .comment r => rw [ItemsOk] at h; rw [ItemsShape]; exact itemsOk_shape r h
  | .ip _ _ r => rw [ItemsOk] at h; rw [ItemsShape]; exact ⟨h.1, h.2.1, itemsOk_shape r h.2.2⟩
  | .paren c r => rw [ItemsOk] at h; rw [ItemsShape]; exact ⟨chainOk_shape c h.1, itemsOk_shape r h.2⟩
end

variable {P : Option String → Prop}

theorem clauses_ok (d : Dir) (i : Items) (h : ItemsShape P i) :
    ∀ n ∈ clauses d i, n ≠ [] ∧ ∀ h ∈ n, CafHost h := by
  match i with
  | .nil => simp [clauses]
  | .comment r => exact clauses_ok d r (by simpa [ItemsShape] using h)
  | .ip d' nets r =>
    simp only [ItemsShape] at h
    simp only [clauses]
    have ih := clauses_ok d r h.2.2
    split
    · intro n hn
      rcases List.mem_cons.1 hn with rfl | hn
      · exact ⟨h.1, h.2.1⟩
      · exact ih n hn
    · exact ih
  | .paren _ r => simp only [ItemsShape] at h; exact clauses_ok d r h.2

/-- A rule as the semantics build it, with an id that satisfies `P`. -/
def LeafRule (P : Option String → Prop) (K : Nat) (f : Rule) : Prop :=
  P f.id ∧ ¬ HasWild f.src.host ∧ ¬ HasWild f.dst.host ∧ f.src.host.depth ≤ K ∧ f.dst.host.depth ≤ K

/-- An operand as the semantics deliver it. -/
def OkExpr (P : Option String → Prop) (e : Expr) : Prop := Runnable (wrap e) ∧ ∀ f, RuleIn f e → LeafRule P 3 f

theorem sel_wrap (e : Expr) : Sel (wrap e) = Sel e := by
  cases e <;> rfl

theorem ruleIn_wrap {f e} (h : RuleIn f (wrap e)) : RuleIn f e := by
  cases e with
  | rule r => cases h with | block h => exact h
  | block e => exact h
  | op o a b => exact h

theorem okExpr_mkOp {o a b} (ha : OkExpr P a) (hb : OkExpr P b) : OkExpr P (mkOp o a b) := by
  refine ⟨.op ha.1 hb.1, ?_⟩
  intro f hf
  cases hf with
  | opl h => exact ha.2 f (ruleIn_wrap h)
  | opr h => exact hb.2 f (ruleIn_wrap h)

theorem okExpr_red : ∀ (l : List (Op × Expr)) (a : Expr), OkExpr P a → (∀ x ∈ l, OkExpr P x.2) →
    OkExpr P (fold2 (red isInter a l).1 (red isInter a l).2) := by
  have red_ok : ∀ (l : List (Op × Expr)) (a : Expr), OkExpr P a → (∀ x ∈ l, OkExpr P x.2) →
      OkExpr P (red isInter a l).1 ∧ ∀ x ∈ (red isInter a l).2, OkExpr P x.2 := by
    intro l
    induction l with
    | nil => intro a ha _; exact ⟨ha, by simp [red]⟩
    | cons x l ih =>
      obtain ⟨o, b⟩ := x
      intro a ha h
      have hb := h (o, b) (by simp)
      have hl := fun x hx => h x (List.mem_cons_of_mem _ hx)
      by_cases ho : isInter o = true
      · simp only [red, ho, if_true]; exact ih _ (okExpr_mkOp ha hb) hl
      · simp only [red, ho]
        obtain ⟨h1, h2⟩ := ih b hb hl
        refine ⟨ha, ?_⟩
        intro x hx
        rcases List.mem_cons.1 hx with rfl | hx
        · exact h1
        · exact h2 x hx
  have fold_ok : ∀ (l : List (Op × Expr)) (a : Expr), OkExpr P a → (∀ x ∈ l, OkExpr P x.2) → OkExpr P (fold2 a l) := by
    intro l
    induction l with
    | nil => intro a ha _; exact ha
    | cons x l ih =>
      intro a ha h
      exact ih _ (okExpr_mkOp ha (h x (by simp))) (fun y hy => h y (by simp [hy]))
  intro l a ha h
  obtain ⟨h1, h2⟩ := red_ok l a ha h
  exact fold_ok _ _ h1 h2

/-- Reading a list of operands (specification's reading, on expressions). -/
def ev (pend : (Entry → Prop) → Entry → Prop) : (Entry → Prop) → List (Op × Expr) → Entry → Prop
  | p, [] => pend p
  | p, (.intersect, b) :: l => ev pend (fun x => p x ∧ Sel b x) l
  | p, (.union, b) :: l => ev (fun R x => pend p x ∨ R x) (Sel b) l
  | p, (.except, b) :: l => ev (fun R x => pend p x ∧ ¬ R x) (Sel b) l

/-- The meaning of an operation in terms of the meanings of its operands. -/
def opProp (o : Op) (P Q : Entry → Prop) : Entry → Prop :=
  match o with
  | .union => fun x => P x ∨ Q x
  | .intersect => fun x => P x ∧ Q x
  | .except => fun x => P x ∧ ¬ Q x

theorem sel_mkOp (o a b) : Sel (mkOp o a b) = opProp o (Sel a) (Sel b) := by
  funext x
  cases o <;> simp [mkOp, Sel, opProp, sel_wrap]

theorem sel_B : ∀ (l : List (Op × Expr)) (c a : Expr) (o : Op),
    Sel (fold2 (mkOp o c (red isInter a l).1) (red isInter a l).2) = ev (fun R => opProp o (Sel c) R) (Sel a) l := by
  intro l
  induction l with
  | nil => intro c a o; simp only [red, fold2, List.foldl_nil, ev, sel_mkOp]
  | cons x l ih =>
    obtain ⟨o', b⟩ := x
    intro c a o
    cases o' with
    | intersect =>
      simp only [red, isInter, ev]
      simp only [beq_self_eq_true, if_true]
      exact (ih c (mkOp .intersect a b) o).trans (by rw [sel_mkOp]; rfl)
    | union =>
      have := ih (mkOp o c a) b .union
      rw [sel_mkOp] at this
      simp only [red, isInter, ev]
      exact this
    | except =>
      have := ih (mkOp o c a) b .except
      rw [sel_mkOp] at this
      simp only [red, isInter, ev]
      exact this

theorem sel_A : ∀ (l : List (Op × Expr)) (a : Expr),
    Sel (fold2 (red isInter a l).1 (red isInter a l).2) = ev (fun R => R) (Sel a) l := by
  intro l
  induction l with
  | nil => intro a; rfl
  | cons x l ih =>
    obtain ⟨o', b⟩ := x
    intro a
    cases o' with
    | intersect =>
      simp only [red, isInter, ev]
      simp only [beq_self_eq_true, if_true]
      exact (ih (mkOp .intersect a b)).trans (by rw [sel_mkOp]; rfl)
    | union =>
      simp only [red, isInter, ev]
      exact sel_B l a b .union
    | except =>
      simp only [red, isInter, ev]
      exact sel_B l a b .except

theorem parenSel_none {i : Items} (h : numParens i = 0) : parenSel i = none := by
  match i with
  | .nil => rw [parenSel]
  | .comment r => rw [parenSel]; exact parenSel_none (by simpa [numParens] using h)
  | .ip _ _ r => rw [parenSel]; exact parenSel_none (by simpa [numParens] using h)
  | .paren _ r => simp [numParens] at h

/-- Drops the comments of a set. -/
def noComments (l : List SetObj) : List SetObj :=
  l.filter (fun o => match o with | .comment => false | _ => true)

theorem setSem_def (id : Option String) (objs : List SetObj) : setSem id objs =
    match noComments objs with
    | [.block e] => .ok e
    | _ => match collectIps (noComments objs) with
      | .error e => .error e
      | .ok ips => .ok (.rule { id := id, src := ⟨dirNode .src ips, none⟩, dst := ⟨dirNode .dst ips, none⟩ }) := by
  unfold setSem noComments
  rfl

theorem saneId_none : SaneId none := by intro s b h; cases h

mutual
theorem chain_ok (c : Chain) (h : ChainShape P c) : ∃ (a : Expr) (xs : List (Op × Expr)), chainItems c = .ok (.set a :: tail xs) ∧
    OkExpr P a ∧ (∀ x ∈ xs, OkExpr P x.2) ∧ ∀ pend prod, chainSel c pend prod = ev pend (prod (Sel a)) xs := by
  match c with
  | .one s =>
    rw [ChainShape] at h
    obtain ⟨a, h1, h2, h3⟩ := set_ok s h
    refine ⟨a, [], by rw [chainItems, h1]; rfl, h2, by simp, ?_⟩
    intro pend prod
    rw [chainSel, h3]; rfl
  | .more s o rest =>
    rw [ChainShape] at h
    obtain ⟨a, h1, h2, h3⟩ := set_ok s h.1
    obtain ⟨b, xs, h4, h5, h6, h7⟩ := chain_ok rest h.2
    refine ⟨a, (o, b) :: xs, by rw [chainItems, h1, h4]; rfl, h2, ?_, ?_⟩
    · intro x hx
      rcases List.mem_cons.1 hx with rfl | hx
      · exact h5
      · exact h6 x hx
    · intro pend prod
      cases o <;> rw [chainSel] <;> simp only [h3, h7, ev]
theorem set_ok (s : SetSyn) (h : SetShape P s) : ∃ a, setVal s = .ok a ∧ OkExpr P a ∧ setSel s = Sel a := by
  match s with
  | .mk id objs =>
    rw [SetShape] at h
    obtain ⟨hi, hp⟩ := h
    obtain ⟨l, e, p0, p1⟩ := items_ok objs hi
    rcases hp with ⟨hp, hs⟩ | ⟨hp, hn⟩
    · obtain ⟨ips, hnb, hc, hd⟩ := p0 hp
      have hdir : ∀ d, dirNode d ips = nodeOf ((clauses d objs).map netSem) := by
        intro d; rw [dirNode_eq, hd]
      have hk : ∀ d, _ := fun d => nodeOf_ok (clauses_ok d objs hi)
      refine ⟨.rule { id := id, src := ⟨dirNode .src ips, none⟩, dst := ⟨dirNode .dst ips, none⟩ }, ?_, ?_, ?_⟩
      · rw [setVal, e]
        show setSem id l = _
        rw [setSem_def]
        split
        · rename_i e' h'; exact absurd h' (hnb e')
        · rw [hc]
      · refine ⟨.leaf, ?_⟩
        intro f hf; cases hf
        refine ⟨hs, ?_, ?_, ?_, ?_⟩
        · show ¬ HasWild (dirNode .src ips); rw [hdir]; exact (hk .src).1
        · show ¬ HasWild (dirNode .dst ips); rw [hdir]; exact (hk .dst).1
        · show (dirNode .src ips).depth ≤ 3; rw [hdir]; exact (hk .src).2.1
        · show (dirNode .dst ips).depth ≤ 3; rw [hdir]; exact (hk .dst).2.1
      · rw [setSel, parenSel_none hp]
        simp only [Sel]
        have : ∀ d, Hit (dirNode d ips) = DirCond (addrs d objs) := by
          intro d; funext b; rw [hdir, ← clauses_flatten]; exact propext ((hk d).2.2 b)
        rw [this .src, this .dst]
    · obtain ⟨e', hb, hok, hsel⟩ := p1 hp hn
      refine ⟨.block e', ?_, ?_, ?_⟩
      · rw [setVal, e]
        show setSem id l = _
        rw [setSem_def, hb]
      · refine ⟨?_, fun f hf => (by cases hf with | block h => exact hok.2 f h)⟩
        cases e' with
        | rule r => exact .leaf
        | block e' => exact .block hok.1
        | op o a b => exact .block hok.1
      · rw [setSel, hsel]; rfl
theorem items_ok (i : Items) (h : ItemsShape P i) : ∃ l, itemVals i = .ok l ∧
    (numParens i = 0 → ∃ ips, (∀ e, noComments l ≠ [.block e]) ∧ collectIps (noComments l) = .ok ips ∧
      ∀ d, (ips.filter (fun i => i.1 == d)).map (·.2) = (clauses d i).map netSem) ∧
    (numParens i = 1 → numIps i = 0 → ∃ e, noComments l = [.block (.block e)] ∧ OkExpr P e ∧
      parenSel i = some (Sel e)) := by
  match i with
  | .nil =>
    refine ⟨[], by rw [itemVals], ?_, ?_⟩
    · intro _; exact ⟨[], by simp [noComments], rfl, by simp [clauses]⟩
    · intro h; simp [numParens] at h
  | .comment r =>
    rw [ItemsShape] at h
    obtain ⟨l, e, p0, p1⟩ := items_ok r h
    refine ⟨.comment :: l, by rw [itemVals, e], ?_, ?_⟩
    · intro hp; exact p0 (by simpa [numParens] using hp)
    · intro hp hn; rw [parenSel]; exact p1 (by simpa [numParens] using hp) (by simpa [numIps] using hn)
  | .ip d nets r =>
    rw [ItemsShape] at h
    obtain ⟨l, e, p0, p1⟩ := items_ok r h.2.2
    refine ⟨.ip d (netSem nets) :: l, by rw [itemVals, e], ?_, ?_⟩
    · intro hp
      obtain ⟨ips, h1, h2, h3⟩ := p0 (by simpa [numParens] using hp)
      have hnc : noComments (.ip d (netSem nets) :: l) = .ip d (netSem nets) :: noComments l := rfl
      refine ⟨(d, netSem nets) :: ips, ?_, ?_, ?_⟩
      · intro e; rw [hnc]; simp
      · rw [hnc, collectIps, h2]
      · intro d'
        have := h3 d'
        simp only [clauses, List.filter_cons]
        by_cases hd : d = d'
        · subst hd; simp [this]
        · have : (d == d') = false := by simpa using hd
          simp [this, hd, h3 d']
    · intro _ hn; simp [numIps] at hn
  | .paren c r =>
    rw [ItemsShape] at h
    obtain ⟨l, e, p0, p1⟩ := items_ok r h.2
    obtain ⟨a, xs, c1, c2, c3, c4⟩ := chain_ok c h.1
    refine ⟨.block (.block (fold2 (red isInter a xs).1 (red isInter a xs).2)) :: l,
      by rw [itemVals, c1]; simp only [exprSem_eq, e], ?_, ?_⟩
    · intro hp; simp [numParens] at hp
    · intro hp hn
      refine ⟨_, ?_, okExpr_red xs a c2 c3, ?_⟩
      · have h0 : numParens r = 0 := by simpa [numParens] using hp
        have h1 : numIps r = 0 := by simpa [numIps] using hn
        obtain ⟨ips, q1, q2, q3⟩ := p0 h0
        have : noComments l = [] := by
          have hcl : ∀ i : Items, numParens i = 0 → numIps i = 0 → ∀ l, itemVals i = .ok l → noComments l = [] := by
            intro i
            induction i using Items.rec (motive_1 := fun _ => True) (motive_2 := fun _ => True) with
            | one => trivial
            | more => trivial
            | mk => trivial
            | nil => intro _ _ l h; rw [itemVals] at h; cases h; rfl
            | comment r ih =>
              intro hp hn l h
              rw [itemVals] at h
              cases hr : itemVals r with
              | error e => rw [hr] at h; cases h
              | ok l' =>
                rw [hr] at h; cases h
                exact ih (by simpa [numParens] using hp) (by simpa [numIps] using hn) l' hr
            | ip => intro _ hn; simp [numIps] at hn
            | paren => intro hp; simp [numParens] at hp
          exact hcl r h0 h1 l e
        show (.block (.block _) :: noComments l) = _
        rw [this]
      · rw [parenSel, c4, sel_A]
end

/-- Parsing a text of an accepted shape gives a runnable expression with the specified meaning. -/
theorem parsed_shaped (c : Chain) (h : ChainShape P c) : ∃ e, parsed c = .ok e ∧ Runnable e ∧
    (∀ f, RuleIn f e → LeafRule P 3 f) ∧ Sel e = Meaning c := by
  obtain ⟨a, xs, h1, h2, h3, h4⟩ := chain_ok c h
  have hk := okExpr_red xs a h2 h3
  refine ⟨.block (fold2 (red isInter a xs).1 (red isInter a xs).2), ?_, ?_, ?_, ?_⟩
  · unfold parsed; simp only [h1, exprSem_eq]
  · generalize fold2 (red isInter a xs).1 (red isInter a xs).2 = e at hk
    cases e with
    | rule r => exact .leaf
    | block e => exact .block hk.1
    | op o a b => exact .block hk.1
  · intro f hf; cases hf with | block h => exact hk.2 f h
  · show Sel (fold2 _ _) = _
    rw [sel_A]; unfold Meaning; rw [h4]

/-- Parsing a well-formed text gives a runnable expression with the specified meaning. -/
theorem parsed_ok (c : Chain) (h : ChainOk c) : ∃ e, parsed c = .ok e ∧ Runnable e ∧
    (∀ f, RuleIn f e → FilterRule 3 f) ∧ Sel e = Meaning c := parsed_shaped c (chainOk_shape c h)

end Caf
end Acltk
