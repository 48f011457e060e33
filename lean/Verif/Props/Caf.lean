import Verif.Lemmas.CafSyn
import Verif.Model.CafComment
import Verif.Props.RuleMatch
/-!
# C11–C16, C18: CAF filters

`run fuel heap rules e` is `e.run(rules)`, `parsed c` the filter that CAF semantics build for the
syntax tree `c`, `configFilter` is `ACLConfig.filter`.  `Sel`, `Meaning`, `ChainOk`, `Grouped`,
`Runnable`, `FilterRule`, `EntryOk`, `EntryDepth` are the specification (Verif/Spec/CafSpec.lean).
-/
namespace Acltk
open Caf

/-! ## C11 -/

/-- **C11** running an expression returns, without duplicates, exactly the rules of the list for
which the boolean reading of the expression holds.  `K` bounds the nesting of the filter's hosts,
`D` that of the entries'. -/
theorem C11_run_is_set_algebra (K D fuel : Nat) (heap : Oid → Entry) (rules : List Oid) (e : Expr)
    (he : Runnable e) (hf : ∀ f, RuleIn f e → FilterRule K f)
    (hx : ∀ o ∈ rules, EntryOk (heap o)) (hd : ∀ o ∈ rules, EntryDepth D (heap o))
    (hfuel : e.height + K + D + 5 ≤ fuel) :
    ∃ r, run fuel heap rules e = .ok r ∧ r.Nodup ∧ ∀ o, o ∈ r ↔ o ∈ rules ∧ Sel e (heap o) :=
  run_spec hx hd he hf hfuel

/-- **C11** the result is a subset of the rule list and does not depend on its order. -/
theorem C11_order_irrelevant (K D fuel : Nat) (heap : Oid → Entry) (rules rules' : List Oid) (e : Expr)
    (he : Runnable e) (hf : ∀ f, RuleIn f e → FilterRule K f)
    (hx : ∀ o ∈ rules, EntryOk (heap o)) (hd : ∀ o ∈ rules, EntryDepth D (heap o))
    (hfuel : e.height + K + D + 5 ≤ fuel) (hp : ∀ o, o ∈ rules ↔ o ∈ rules') :
    ∃ r r', run fuel heap rules e = .ok r ∧ run fuel heap rules' e = .ok r' ∧ r.Perm r' ∧ ∀ o ∈ r, o ∈ rules := by
  obtain ⟨r, h1, h2, h3⟩ := run_spec hx hd he hf hfuel
  obtain ⟨r', h1', h2', h3'⟩ := run_spec (rules := rules') (fun o ho => hx o ((hp o).2 ho))
    (fun o ho => hd o ((hp o).2 ho)) he hf hfuel
  refine ⟨r, r', h1, h1', ?_, fun o ho => ((h3 o).1 ho).1⟩
  rw [List.perm_ext_iff_of_nodup h2 h2']
  intro o; rw [h3, h3', hp]

/-! ## C12 -/

/-- **C12** a flat chain of operands and operators is grouped in exactly one way: `intersect`
binds tighter than `union`/`except`, both levels group to the left. -/
theorem C12_precedence (l : List Item) (h : Alternating l) (e : Expr) :
    exprSem l = .ok e ↔ Grouped l e := by
  constructor
  · intro he
    obtain ⟨a, xs, rfl⟩ := alternating_shape h
    rw [exprSem_eq] at he
    cases he
    exact grouped_A xs .one
  · intro hg
    obtain ⟨a, xs, rfl, rfl⟩ := grouped_shape hg
    exact exprSem_eq a xs

/-- **C12** every flat chain can be grouped. -/
theorem C12_total (l : List Item) (h : Alternating l) : ∃ e, exprSem l = .ok e := by
  obtain ⟨a, xs, rfl⟩ := alternating_shape h
  exact ⟨_, exprSem_eq a xs⟩

namespace Sample
/-- four sets a, b, c, d with different ids -/
def st (s : String) : Expr := .rule { id := some s, src := ⟨.any, none⟩, dst := ⟨.any, none⟩ }
end Sample

-- a union b intersect c except d  =  (a union (b intersect c)) except d
example : Alternating [.set (Sample.st "a"), .op .union, .set (Sample.st "b"), .op .intersect,
      .set (Sample.st "c"), .op .except, .set (Sample.st "d")] ∧
    exprSem [.set (Sample.st "a"), .op .union, .set (Sample.st "b"), .op .intersect,
      .set (Sample.st "c"), .op .except, .set (Sample.st "d")] =
    .ok (mkOp .except (mkOp .union (Sample.st "a") (mkOp .intersect (Sample.st "b") (Sample.st "c"))) (Sample.st "d")) :=
  ⟨.cons (.cons (.cons .one)),
   (C12_precedence _ (.cons (.cons (.cons .one))) _).2
     (.snoc (l := [_, _, _, _, _]) (m := [_]) (.snoc (l := [_]) (.term .one) (by simp) (.snoc (l := [_]) .one)) (by simp) .one)⟩

/-! ## C13 -/

/-- **C13** a set without parentheses selects an entry iff the id is compatible and for each
direction that has at least one address, in whatever clause, one of these addresses hits the
entry's side (`Selects`, `DirCond`, `addrs`). -/
theorem C13_clauses_accumulate (id : Option String) (objs : Items) (hs : SaneId id)
    (ho : ItemsOk objs) (hp : numParens objs = 0) :
    ∃ f, setVal (.mk id objs) = .ok (.rule f) ∧ FilterRule 3 f ∧
      ∀ (x : Entry) (D fuel : Nat), EntryOk x → EntryDepth D x → 3 + D + 4 ≤ fuel →
        ∃ b, ruleAnd fuel f x = .ok b ∧
          (b = true ↔ Selects id (DirCond (addrs .src objs)) (DirCond (addrs .dst objs)) x) := by
  have hok : SetOk (.mk id objs) := by rw [SetOk]; exact ⟨ho, hs, .inl hp⟩
  obtain ⟨a, h1, h2, h3⟩ := set_ok _ (setOk_shape _ hok)
  obtain ⟨l, e, p0, _⟩ := items_ok objs (itemsOk_shape _ ho)
  obtain ⟨ips, hnb, hc, _⟩ := p0 hp
  have : ∃ f, a = .rule f := by
    rw [setVal, e] at h1
    have h1 : setSem id l = .ok a := h1
    rw [setSem_def] at h1
    split at h1
    · rename_i e' h'; exact absurd h' (hnb e')
    · rw [hc] at h1; cases h1; exact ⟨_, rfl⟩
  obtain ⟨f, rfl⟩ := this
  have hfr := h2.2 f .rule
  refine ⟨f, h1, hfr, ?_⟩
  intro x D fuel hx hd hfuel
  obtain ⟨b, hb, hbp⟩ := ruleAnd_sel hfr hx hd hfuel
  refine ⟨b, hb, ?_⟩
  rw [hbp]
  rw [setSel, parenSel_none hp] at h3
  exact (iff_of_eq (congrFun h3 x)).symm

/-- **C13** the order and grouping of clauses is irrelevant: two sets with the same id whose
clauses give the same addresses per direction select the same entries. -/
theorem C13_grouping_irrelevant (id : Option String) (o1 o2 : Items)
    (h : ∀ d a, a ∈ addrs d o1 ↔ a ∈ addrs d o2) (x : Entry) :
    Selects id (DirCond (addrs .src o1)) (DirCond (addrs .dst o1)) x ↔
    Selects id (DirCond (addrs .src o2)) (DirCond (addrs .dst o2)) x := by
  have key : ∀ d, DirCond (addrs d o1) = DirCond (addrs d o2) := by
    intro d; funext b; unfold DirCond
    have : addrs d o1 = [] ↔ addrs d o2 = [] := by
      simp only [List.eq_nil_iff_forall_not_mem, h]
    rw [this]; simp only [h]
  rw [key, key]

/-- **C13** adding an address to a direction that already has one can only grow the selection. -/
theorem C13_more_addresses_grow (id : Option String) (s s' d d' : List Host)
    (hs : s ≠ []) (hd : d ≠ []) (h1 : ∀ a ∈ s, a ∈ s') (h2 : ∀ a ∈ d, a ∈ d') (x : Entry)
    (h : Selects id (DirCond s) (DirCond d) x) : Selects id (DirCond s') (DirCond d') x := by
  have grow : ∀ {l l' : List Host}, l ≠ [] → (∀ a ∈ l, a ∈ l') → ∀ b, DirCond l b → DirCond l' b := by
    intro l l' hl hsub b h
    rcases h with h | ⟨a, ha, h⟩
    · exact absurd h hl
    · exact .inr ⟨a, hsub a ha, h⟩
  have side : ∀ t : NatSide, SideHit (DirCond s) (DirCond d) t → SideHit (DirCond s') (DirCond d') t :=
    fun t ⟨a, b, c⟩ => ⟨a, fun h e => grow hs h1 _ (b h e), fun h e => grow hd h2 _ (c h e)⟩
  cases x with
  | rule r => exact ⟨h.1, grow hs h1 _ h.2.1, grow hd h2 _ h.2.2⟩
  | nat n =>
    rcases h with ⟨t, h, h'⟩ | ⟨t, h, h'⟩
    · exact .inl ⟨t, h, side t h'⟩
    · exact .inr ⟨t, h, side t h'⟩

-- id inside ip src 10.0.0.0/8 ip dst any4 /* c */ ip src 192.168.1.0/24
example : ItemsOk (.ip .src [.net ⟨.v4, 0x0A000000, 8⟩] (.ip .dst [.any4] (.comment
      (.ip .src [.net ⟨.v4, 0xC0A80100, 24⟩] .nil)))) := by
  simp only [ItemsOk]
  refine ⟨by simp, ?_, by simp, ?_, by simp, ?_, trivial⟩ <;> intro h hh <;> simp at hh <;> subst hh <;> constructor

/-! ## C14 -/

/-- **C14 is violated**: the id in front of a single parenthesised expression is dropped: the
result is the same for every id. -/
theorem C14_violated (id : String) (c : Chain) :
    setVal (.mk (some id) (.paren c .nil)) = setVal (.mk none (.paren c .nil)) := by
  simp only [setVal, itemVals]
  cases chainItems c with
  | error e => rfl
  | ok items =>
    cases h : exprSem items with
    | error e => simp [h]
    | ok e => simp only [h]; rfl

/-- **C14 is violated**: a concrete filter `id outside ( ip src 10.0.0.0/8 )` selects a rule of
access list `inside`, although the ids are incompatible. -/
theorem C14_violated_witness : ∃ f, parsed (.one (.mk (some "outside") (.paren (.one (.mk none
        (.ip .src [.net ⟨.v4, 0x0A000000, 8⟩] .nil))) .nil))) = .ok f ∧
      run 20 (fun _ => .rule Sample.rul) [7] f = .ok [7] ∧ Sample.rul.id = some "inside" := by
  refine ⟨.block (.block (.rule { src := ⟨.net ⟨.v4, 0x0A000000, 8⟩, none⟩, dst := ⟨.any, none⟩ })), ?_, ?_, rfl⟩
  · with_unfolding_all rfl
  · decide +kernel

/-- **C14 is violated**: a parenthesis together with an ip clause, or two parentheses, make the
parser raise TypeError. -/
theorem C14_violated_raises (id : Option String) (e e' : Expr) (d : Dir) (h : Host) :
    setSem id [.block e, .block e'] = .error .type ∧ setSem id [.ip d h, .block e] = .error .type ∧
    setSem id [.block e, .ip d h] = .error .type := ⟨rfl, rfl, rfl⟩

/-- **C14, what holds**: without id and other clauses, a parenthesised expression (with any
comments around it) means what the inner expression means.  Missing: ids in front of it. -/
theorem C14_parenthesis_partial (objs : Items) (ho : ItemsOk objs) (hp : numParens objs = 1)
    (hi : numIps objs = 0) :
    ∃ e, setVal (.mk none objs) = .ok e ∧ parenSel objs = some (Sel e) := by
  obtain ⟨l, h1, _, p1⟩ := items_ok objs (itemsOk_shape _ ho)
  obtain ⟨e, h2, _, h3⟩ := p1 hp hi
  refine ⟨.block e, ?_, h3⟩
  rw [setVal, h1]
  show setSem none l = _
  rw [setSem_def, h2]

/-! ## C15 -/

/-- **C15** end to end: every well-formed CAF text is turned into a filter that can be run
against every list of rules and NAT objects without exception, given a stack budget above the
nesting of the text and of the hosts, and it selects exactly the entries the text means. -/
theorem C15_filter_never_fails (c : Chain) (hc : ChainOk c) :
    ∃ e, parsed c = .ok e ∧ ∀ (heap : Oid → Entry) (rules : List Oid) (D fuel : Nat),
      (∀ o ∈ rules, EntryOk (heap o)) → (∀ o ∈ rules, EntryDepth D (heap o)) →
      e.height + 3 + D + 5 ≤ fuel →
      ∃ r, run fuel heap rules e = .ok r ∧ r.Nodup ∧ ∀ o, o ∈ r ↔ o ∈ rules ∧ Meaning c (heap o) := by
  obtain ⟨e, h1, h2, h3, h4⟩ := parsed_ok c hc
  refine ⟨e, h1, ?_⟩
  intro heap rules D fuel hx hd hfuel
  obtain ⟨r, e1, e2, e3⟩ := run_spec hx hd h2 h3 hfuel
  exact ⟨r, e1, e2, fun o => by rw [e3, h4]⟩

namespace Sample
/-- `ip src 10.0.0.0/8 except ( id outside union ip dst ANY any6 )` -/
def text : Chain :=
  .more (.mk none (.ip .src [.net ⟨.v4, 0x0A000000, 8⟩] .nil)) .except
    (.one (.mk none (.paren (.more (.mk (some "outside") .nil) .union
      (.one (.mk none (.ip .dst [.cafAny, .any6] .nil)))) .nil)))
theorem saneId_outside : SaneId (some "outside") := by
  intro s body h hp
  cases h
  have h0 := congrArg String.toList hp.1
  simp at h0
end Sample

example : ChainOk Sample.text := by
  simp only [Sample.text, ChainOk, SetOk, ItemsOk, numParens, numIps]
  refine ⟨⟨⟨by simp, ?_, trivial⟩, saneId_none, by simp⟩, ⟨⟨⟨trivial, Sample.saneId_outside, by simp⟩,
    ⟨by simp, ?_, trivial⟩, saneId_none, by simp⟩, trivial⟩, saneId_none, by simp⟩
  · intro h hh; simp at hh; subst hh; constructor
  · intro h hh; simp at hh; rcases hh with rfl | rfl <;> constructor

example : EntryOk (.rule Sample.rul) ∧ EntryDepth 1 (.rule Sample.rul) :=
  ⟨Sample.saneId_inside, by simp [EntryDepth, Sample.rul, Host.depth]⟩

example : ∃ e, parsed Sample.text = .ok e ∧ run 30 (fun _ => .rule Sample.rul) [3, 4] e = .ok [3, 4] := by
  refine ⟨.block (mkOp .except (.rule { src := ⟨.net ⟨.v4, 0x0A000000, 8⟩, none⟩, dst := ⟨.any, none⟩ })
    (.block (mkOp .union (.rule { id := some "outside", src := ⟨.any, none⟩, dst := ⟨.any, none⟩ })
      (.rule { src := ⟨.any, none⟩, dst := ⟨.group "" [.cafAny, .any6], none⟩ })))), ?_, by decide +kernel⟩
  with_unfolding_all rfl

/-! ## C16 -/

/-- Number of stars at the end. -/
def trailingStars (l : List Char) : Nat := (l.reverse.takeWhile (· == '*')).length

/-- `body` contains no `*/`, also not across its end when `*/` follows: the `*/` after `body` is
the first one. -/
def FirstClose (body : List Char) : Prop :=
  ∀ pre post, body ++ ['*', '/'] = pre ++ '*' :: '/' :: post → post = []

theorem scanBody_spec : ∀ (n : Nat) (body rest : List Char), body.length ≤ n → FirstClose body →
    (trailingStars body % 2 = 0 → scanBody (body ++ '*' :: '/' :: rest) = '*' :: '/' :: rest) ∧
    (trailingStars body % 2 = 1 → scanBody (body ++ '*' :: '/' :: rest) = scanBody ('/' :: rest)) := by
  intro n
  induction n with
  | zero =>
    intro body rest hn _
    have : body = [] := by simpa using hn
    subst this
    exact ⟨fun _ => rfl, fun h => by simp [trailingStars] at h⟩
  | succ n ih =>
    intro body rest hn hfc
    match body with
    | [] => exact ⟨fun _ => rfl, fun h => by simp [trailingStars] at h⟩
    | [c] =>
      by_cases hc : c = '*'
      · subst hc
        refine ⟨fun h => by simp [trailingStars] at h, fun _ => ?_⟩
        show scanBody ('*' :: '*' :: '/' :: rest) = _
        rw [scanBody]
        · simp
      · have : ([c].reverse.takeWhile (· == '*')) = [] := by simp [hc]
        refine ⟨fun _ => ?_, fun h => by simp [trailingStars, hc] at h⟩
        show scanBody (c :: '*' :: '/' :: rest) = _
        rw [scanBody]
        · rfl
        all_goals simp [hc]
    | c :: d :: b =>
      have hfc1 : FirstClose (d :: b) := by
        intro pre post e
        exact hfc (c :: pre) post (by simp only [List.cons_append] at e ⊢; rw [e])
      have hfc2 : FirstClose b := by
        intro pre post e
        exact hfc (c :: d :: pre) post (by simp only [List.cons_append] at e ⊢; rw [e])
      by_cases hc : c = '*'
      · subst hc
        have hd : d ≠ '/' := by
          rintro rfl
          have := hfc [] (b ++ ['*', '/']) (by simp)
          simp at this
        have step : scanBody ('*' :: d :: (b ++ '*' :: '/' :: rest)) = scanBody (b ++ '*' :: '/' :: rest) := by
          rw [scanBody]
          · simpa using hd
        have par : trailingStars ('*' :: d :: b) % 2 = trailingStars b % 2 := by
          unfold trailingStars
          have e : ('*' :: d :: b).reverse = b.reverse ++ [d, '*'] := by simp
          rw [e, List.takeWhile_append]
          split
          · rename_i h
            by_cases hds : d = '*'
            · subst hds; simp [h]
            · simp [hds, h]
          · rfl
        obtain ⟨h1, h2⟩ := ih b rest (by simp at hn; omega) hfc2
        rw [par]
        exact ⟨fun h => step.trans (h1 h), fun h => step.trans (h2 h)⟩
      · have step : scanBody (c :: (d :: b ++ '*' :: '/' :: rest)) = scanBody (d :: b ++ '*' :: '/' :: rest) := by
          rw [scanBody]
          all_goals simp [hc]
        have par : trailingStars (c :: d :: b) = trailingStars (d :: b) := by
          unfold trailingStars
          have e : (c :: d :: b).reverse = (d :: b).reverse ++ [c] := by simp
          rw [e, List.takeWhile_append]
          split
          · rename_i h; simp only [List.takeWhile_cons, List.takeWhile_nil]
            have : (c == '*') = false := by simpa using hc
            rw [this]; simp only [Bool.false_eq_true, if_false, List.append_nil]; rw [h]
          · rfl
        obtain ⟨h1, h2⟩ := ih (d :: b) rest (by simp at hn ⊢; omega) hfc1
        rw [par]
        exact ⟨fun h => step.trans (h1 h), fun h => step.trans (h2 h)⟩

/-- **C16 is violated**: in `/***/ id x /* y */ z` the comment does not end at the first `*/`: the
filter text `id x` is swallowed. -/
theorem C16_violated : comment "/***/ id x /* y */ z".toList = some " z".toList := by decide

/-- **C16 is violated** for every comment whose body ends in an odd number of stars: the end of
the comment is missed and scanning goes on in the text behind it. -/
theorem C16_violated_all (body rest : List Char) (h : FirstClose body) (hs : trailingStars body % 2 = 1) :
    comment ('/' :: '*' :: (body ++ '*' :: '/' :: rest)) = comment ('/' :: '*' :: '/' :: rest) := by
  simp only [comment, (scanBody_spec _ body rest (Nat.le_refl _) h).2 hs]

/-- **C16, what holds**: a comment whose body ends in an even number of stars (in particular in
no star) ends at the first `*/`, whatever follows.  Missing: bodies ending in an odd number of
stars. -/
theorem C16_comment_end_partial (body rest : List Char) (h : FirstClose body)
    (hs : trailingStars body % 2 = 0) :
    comment ('/' :: '*' :: (body ++ '*' :: '/' :: rest)) = some rest := by
  simp only [comment, (scanBody_spec _ body rest (Nat.le_refl _) h).1 hs]

example : FirstClose " a * b ".toList ∧ trailingStars " a * b ".toList % 2 = 0 := by
  refine ⟨?_, by decide⟩
  intro pre post h
  have h : [' ', 'a', ' ', '*', ' ', 'b', ' ', '*', '/'] = pre ++ '*' :: '/' :: post := h
  rcases pre with _ | ⟨_, _ | ⟨_, _ | ⟨_, _ | ⟨_, _ | ⟨_, _ | ⟨_, _ | ⟨_, _ | ⟨_, _ | ⟨_, p⟩⟩⟩⟩⟩⟩⟩⟩⟩ <;> simp at h
  exact h.2.2.2.2.2.2.2

/-! ## C18 -/

/-- **C18** `ACLConfig.filter` returns exactly the access rules and the NAT objects of the three
sections that the filter selects. -/
theorem C18_config_filter (K D fuel : Nat) (heap : Oid → Entry) (rules n1 n2 n3 : List Oid) (e : Expr)
    (he : Runnable e) (hf : ∀ f, RuleIn f e → FilterRule K f)
    (hx : ∀ o ∈ rules ++ n1 ++ n2 ++ n3, EntryOk (heap o))
    (hd : ∀ o ∈ rules ++ n1 ++ n2 ++ n3, EntryDepth D (heap o))
    (hfuel : e.height + K + D + 6 ≤ fuel) :
    ∃ r, configFilter fuel heap rules (n1, n2, n3) e = .ok r ∧ r.Nodup ∧
      ∀ o, o ∈ r ↔ (o ∈ rules ∨ o ∈ n1 ∨ o ∈ n2 ∨ o ∈ n3) ∧ Sel e (heap o) := by
  obtain ⟨g, rfl⟩ : ∃ g, fuel = g + 1 := ⟨fuel - 1, by omega⟩
  obtain ⟨r, h1, h2, h3⟩ := run_spec (rules := rules) (K := K) (D := D) (heap := heap)
    (fun o ho => hx o (by simp [ho])) (fun o ho => hd o (by simp [ho])) he hf (fuel := g) (by omega)
  obtain ⟨r', h1', h2', h3'⟩ := run_spec (rules := n1 ++ n2 ++ n3) (K := K) (D := D) (heap := heap)
    (fun o ho => hx o (by simp at ho ⊢; exact .inr ho)) (fun o ho => hd o (by simp at ho ⊢; exact .inr ho)) he hf (fuel := g) (by omega)
  refine ⟨setUnion (setUnion [] r) r', by simp only [configFilter, h1, h1'], nodup_setUnion (nodup_setUnion (by simp)), ?_⟩
  intro o
  rw [mem_setUnion, mem_setUnion, h3, h3']
  simp only [List.not_mem_nil, false_or, List.mem_append]
  constructor
  · rintro (⟨a, b⟩ | ⟨a, b⟩)
    · exact ⟨.inl a, b⟩
    · exact ⟨.inr (by rcases a with (a | a) | a <;> simp [a]), b⟩
  · rintro ⟨a | a | a | a, b⟩
    · exact .inl ⟨a, b⟩
    · exact .inr ⟨.inl (.inl a), b⟩
    · exact .inr ⟨.inl (.inr a), b⟩
    · exact .inr ⟨.inr a, b⟩

example : Runnable (.block (Sample.st "inside")) ∧
    configFilter 20 (fun o => if o = 1 then .rule Sample.rul else
      .nat { real := some ⟨some (some .any), none⟩, mapped := some ⟨none, none⟩ }) [1] ([2], [], [3])
      (.block (Sample.st "inside")) = .ok [1, 2, 3] := ⟨.leaf, by decide +kernel⟩

end Acltk
