import Verif.Lemmas.CafNet
/-!
# Reading CAF texts: sets and expressions
-/
namespace Acltk.CafText
open Acltk Acltk.Lookup Acltk.Peg Acltk.Caf

variable {α β : Type} {g : Guard}

/-- The value of a chain. -/
def chainVal (c : Chain) : Py Expr :=
  match chainItems c with
  | .error e => .error e
  | .ok l => exprSem l

theorem Fl.after {p : P α} {f : α → P β} {a : α} {ws more : List Word} (h : Rd p (.ok a) ws more) (h2 : Fl (f a) more) :
    Fl (p >>= f) (ws ++ more) := by
  intro t ht
  obtain ⟨t', e, hw, -⟩ := h t ht
  rw [bind_ok e]
  exact h2 t' hw

/-- What may follow a set. -/
def SetStop (ws : List Word) : Prop := ∀ w ∈ ws.head?, w = .key ")" ∨ ∃ o, w = .key (opWord o)

theorem ChainStop.set {ws : List Word} (h : ChainStop ws) : SetStop ws := fun w hw => Or.inl (h w hw)

theorem opWord_keys (o : Op) : opWord o ∈ keys := by cases o <;> decide

theorem SetStop.noComment {ws : List Word} (h : SetStop ws) : NoComment ws := by
  intro w hw
  rcases h w hw with rfl | ⟨o, rfl⟩
  · exact ⟨")", by decide, rfl⟩
  · exact ⟨_, opWord_keys o, rfl⟩

theorem SetStop.netStop {ws : List Word} (h : SetStop ws) : NetStop ws := by
  intro w hw
  rcases h w hw with rfl | ⟨o, rfl⟩
  · exact Or.inl ⟨")", by decide, rfl⟩
  · exact Or.inl ⟨_, by cases o <;> decide, rfl⟩

/-- A keyword that ends a set is no other keyword. -/
theorem key_stop {s : String} (hs : s ∈ ["ip", "(", "id"]) {ws : List Word} (h : SetStop ws) : Fl (key g s) ws := by
  cases ws with
  | nil =>
    refine key_nil ?_
    revert hs s; decide +kernel
  | cons w ws =>
    have go : ∀ s ∈ ["ip", "(", "id"], ∀ s' ∈ [")", "union", "intersect", "except"], s.toList.isPrefixOf s'.toList = false ∧ s'.toList.isPrefixOf s.toList = false := by
      decide +kernel
    rcases h w (by simp) with rfl | ⟨o, rfl⟩
    · have := go s hs ")" (by decide)
      exact key_other this.1 this.2 ws
    · have := go s hs (opWord o) (by cases o <;> decide)
      exact key_other this.1 this.2 ws

theorem setR_stop {inner : P Expr} {ws : List Word} (h : SetStop ws) : Fl (setR g inner) ws :=
  Fl.skip (Fl.alt (Fl.skip (Fl.bind (key_stop (by decide) h)))
    (Fl.alt (Fl.skip (Fl.bind (key_stop (by decide) h))) (Fl.alt (Fl.bind (comments_no h.noComment)) Fl.altsNil)))

theorem setR_ip (hg : NameGuard g) {inner : P Expr} {d : Dir} {nets : List Host} {ns more : List Word} (h : NetworkWords nets ns)
    (hm : NetStop more) : Rd (setR g inner) (.ok (.ip d (netSem nets))) (.key "ip" :: .key (dirWord d) :: ns) more :=
  Rd.skip (Rd.altOk (setIp_read hg h hm))

theorem setR_comments {inner : P Expr} {cs more : List Word} (h : CommentWords cs) (hne : cs ≠ []) (hm : NoComment more) :
    Rd (setR g inner) (.ok .comment) cs more := by
  have hc : ∀ s : String, s ∈ ["ip", "("] → Fl (key g s) (cs ++ more) := by
    intro s hs
    cases h with
    | nil => exact absurd rfl hne
    | cons b ws _ _ =>
      have : ∀ s ∈ ["ip", "("], (∀ c ∈ s.toList.head?, c ≠ '/') ∧ s.toList ≠ [] := by decide +kernel
      exact key_comment (this s hs).1 (this s hs).2 b _
  refine Rd.skip (Rd.altFail (Fl.skip (Fl.bind (hc _ (by decide)))) (Rd.altFail (Fl.skip (Fl.bind (hc _ (by decide)))) (Rd.altOk ?_)))
  have := Rd.bind (vs := []) (f := fun _ => (pure .comment : P SetObj)) (by simpa using comments_read h hne hm) (Rd.pure _ more)
  rw [List.append_nil] at this
  exact this

/-- The value of a parenthesis. -/
def parenVal : Py Expr → Py SetObj
  | .ok e => .ok (.block (.block e))
  | .error x => .error x

/-- The value of a set from those of its clauses. -/
def semVal (id : Option String) : Py (List SetObj) → Py Expr
  | .error e => .error e
  | .ok l => setSem id l

theorem setR_paren (hg : NameGuard g) {inner : P Expr} {v : Py Expr} {cs more : List Word}
    (h : ∀ m, ChainStop m → Rd inner v cs m) :
    Rd (setR g inner) (parenVal v) (.key "(" :: (cs ++ [.key ")"])) more := by
  refine Rd.skip (Rd.altFail (Fl.skip (Fl.bind (key_other (by decide +kernel) (by decide +kernel) _))) (Rd.altOk (Rd.skip ?_)))
  refine Rd.bind (ws := [.key "("]) (key_read hg (by decide) _) ?_
  have hi := h (.key ")" :: more) (by intro w hw; simp at hw; exact hw.symm)
  cases v with
  | error x => exact Rd.bindRaise hi
  | ok e =>
    refine Rd.bind hi ?_
    exact Rd.bind (ws := [.key ")"]) (vs := []) (key_read hg (by decide) _) (Rd.pure _ more)

/-- Not a comment. -/
def solid (o : SetObj) : Bool := match o with | .comment => false | _ => true

theorem setSem_solid {id : Option String} {l l' : List SetObj} (h : l.filter solid = l'.filter solid) : setSem id l = setSem id l' := by
  have h : noComments l = noComments l' := h
  rw [setSem_def, setSem_def, h]

/-- Two outcomes of reading clauses, up to comments. -/
def Same (v : Py (List SetObj)) (w : Py (List SetObj)) : Prop :=
  match v, w with
  | .ok l, .ok l' => l.filter solid = l'.filter solid
  | .error e, .error e' => e = e'
  | _, _ => False

theorem Same.refl (v : Py (List SetObj)) : Same v v := by cases v <;> simp [Same]

theorem comments_snoc {cs : List Word} (h : CommentWords cs) {b : List Char} (hb : CommentBody b) : CommentWords (cs ++ [.comment b]) := by
  induction h with
  | nil => exact .cons b [] hb .nil
  | cons b' ws hb' _ ih => exact .cons b' _ hb' ih

theorem comments_append {cs cs' : List Word} (h : CommentWords cs) (h' : CommentWords cs') : CommentWords (cs ++ cs') := by
  induction h with
  | nil => exact h'
  | cons b' ws hb' _ ih => exact .cons b' _ hb' ih

/-- A clause read behind comments. -/
theorem behind_comments {inner : P Expr} {cs ws more : List Word} {w : Py (List SetObj)} {v : Py (List SetObj)} (hc : CommentWords cs)
    (hn : NoComment (ws ++ more)) (h : Rd (many (setR g inner)) w ws more) (hs : Same v w) :
    ∃ w', Rd (many (setR g inner)) w' (cs ++ ws) more ∧ Same v w' := by
  by_cases hne : cs = []
  · subst hne; exact ⟨w, h, hs⟩
  · have hr := setR_comments (g := g) (inner := inner) hc hne hn
    cases w with
    | error x => exact ⟨_, Rd.manyRaise hr hne h, hs⟩
    | ok l =>
      refine ⟨_, Rd.manyCons hr hne h, ?_⟩
      cases v with
      | error x => exact hs
      | ok l' =>
        show _ = List.filter solid (.comment :: l)
        rw [List.filter_cons_of_neg (by simp [solid])]
        exact hs

/-- What follows a clause: further clauses or the end of the set. -/
theorem items_netStop {r : Items} {ws more : List Word} (h : ItemsWords r ws) (hm : SetStop more) : NetStop (ws ++ more) := by
  cases h with
  | nil => exact hm.netStop
  | comment b r ws _ _ => intro w hw; simp at hw; exact Or.inr ⟨b, hw.symm⟩
  | ip d nets r ns ws _ _ => intro w hw; simp at hw; exact Or.inl ⟨"ip", by decide, hw.symm⟩
  | paren c r cs ws _ _ => intro w hw; simp at hw; exact Or.inl ⟨"(", by decide, hw.symm⟩

theorem items_read (hg : NameGuard g) {inner : P Expr} {n : Nat}
    (hin : ∀ c ws more, ChainWords c ws → chainDepth c ≤ n → ChainStop more → Rd inner (chainVal c) ws more) :
    ∀ (objs : Items) (cs ws more : List Word), CommentWords cs → ItemsWords objs ws → itemsDepth objs ≤ n → SetStop more →
      ∃ w, Rd (many (setR g inner)) w (cs ++ ws) more ∧ Same (itemVals objs) w
  | .nil, cs, ws, more, hc, hw, hd, hm => by
    cases hw
    exact behind_comments hc hm.noComment (Rd.manyNil (setR_stop hm)) (Same.refl _)
  | .comment r, cs, ws, more, hc, hw, hd, hm => by
    cases hw with
    | comment b r ws hb hw =>
      obtain ⟨w, h1, h2⟩ := items_read hg hin r (cs ++ [.comment b]) ws more (comments_snoc hc hb) hw hd hm
      rw [List.append_assoc] at h1
      refine ⟨w, h1, ?_⟩
      rw [itemVals]
      cases hv : itemVals r with
      | error e => rw [hv] at h2; exact h2
      | ok l =>
        rw [hv] at h2
        cases w with
        | error e => exact h2
        | ok l' =>
          show List.filter solid (.comment :: l) = _
          rw [List.filter_cons_of_neg (by simp [solid])]; exact h2
  | .ip d nets r, cs, ws, more, hc, hw, hd, hm => by
    cases hw with
    | ip _ _ _ ns ws hns hw =>
      obtain ⟨w, h1, h2⟩ := items_read hg hin r [] ws more .nil hw hd hm
      have hr := setR_ip (inner := inner) (d := d) hg hns (items_netStop hw hm)
      have key : ∃ w, Rd (many (setR g inner)) w (.key "ip" :: .key (dirWord d) :: ns ++ ws) more ∧ Same (itemVals (.ip d nets r)) w := by
        rw [itemVals]
        cases w with
        | error x =>
          refine ⟨_, Rd.manyRaise hr (by simp) h1, ?_⟩
          cases hv : itemVals r with
          | error e => rw [hv] at h2; exact h2
          | ok l => rw [hv] at h2; exact h2.elim
        | ok l' =>
          refine ⟨_, Rd.manyCons hr (by simp) h1, ?_⟩
          cases hv : itemVals r with
          | error e => rw [hv] at h2; exact h2.elim
          | ok l =>
            rw [hv] at h2
            show List.filter solid (_ :: l) = List.filter solid (_ :: l')
            rw [List.filter_cons_of_pos (by simp [solid]), List.filter_cons_of_pos (by simp [solid]), show List.filter solid l = _ from h2]
      obtain ⟨w, h1, h2⟩ := key
      exact behind_comments hc (by intro x hx; simp at hx; exact ⟨"ip", by decide, hx.symm⟩) h1 h2
  | .paren c r, cs, ws, more, hc, hw, hd, hm => by
    cases hw with
    | paren _ _ vs ws hvs hw =>
      rw [itemsDepth] at hd
      obtain ⟨w, h1, h2⟩ := items_read hg hin r [] ws more .nil hw (by omega) hm
      have hr := setR_paren (g := g) (more := ws ++ more) hg (fun m hm => hin c vs m hvs (by omega) hm)
      have hv' : itemVals (.paren c r) = match chainVal c with
        | .error e => .error e
        | .ok e => match itemVals r with
          | .error e => .error e
          | .ok l => .ok (.block (.block e) :: l) := by
        rw [itemVals, chainVal]
        cases chainItems c <;> rfl
      have key : ∃ w, Rd (many (setR g inner)) w ((.key "(" :: (vs ++ [.key ")"])) ++ ws) more ∧ Same (itemVals (.paren c r)) w := by
        rw [hv']
        cases hcv : chainVal c with
        | error x =>
          rw [hcv] at hr
          refine ⟨.error x, ?_, rfl⟩
          apply Rd.manyRaiseNow
          intro t ht
          exact hr t (by simpa using ht)
        | ok e =>
          rw [hcv] at hr
          cases w with
          | error x =>
            refine ⟨_, Rd.manyRaise hr (by simp) h1, ?_⟩
            cases hv : itemVals r with
            | error e => rw [hv] at h2; exact h2
            | ok l => rw [hv] at h2; exact h2.elim
          | ok l' =>
            refine ⟨_, Rd.manyCons hr (by simp) h1, ?_⟩
            cases hv : itemVals r with
            | error e => rw [hv] at h2; exact h2.elim
            | ok l =>
              rw [hv] at h2
              show List.filter solid (_ :: l) = List.filter solid (_ :: l')
              rw [List.filter_cons_of_pos (by simp [solid]), List.filter_cons_of_pos (by simp [solid]), show List.filter solid l = _ from h2]
      obtain ⟨w, h1, h2⟩ := key
      have e : Word.key "(" :: (vs ++ .key ")" :: ws) = (.key "(" :: (vs ++ [.key ")"])) ++ ws := by simp
      rw [e]
      exact behind_comments hc (by intro x hx; simp at hx; exact ⟨"(", by decide, hx.symm⟩) h1 h2

/-- The comments in front of the clauses. -/
theorem items_lead : ∀ (objs : Items) (ws : List Word), ItemsWords objs ws → ∃ cs ws' objs', ws = cs ++ ws' ∧ CommentWords cs ∧
    ItemsWords objs' ws' ∧ Same (itemVals objs) (itemVals objs') ∧ itemsDepth objs' = itemsDepth objs ∧
    ∀ w ∈ ws'.head?, ∃ s ∈ ["ip", "("], w = .key s
  | .nil, ws, h => ⟨[], ws, .nil, rfl, .nil, h, Same.refl _, rfl, by cases h; simp⟩
  | .ip d nets r, ws, h => ⟨[], ws, .ip d nets r, rfl, .nil, h, Same.refl _, rfl, by cases h; simp⟩
  | .paren c r, ws, h => ⟨[], ws, .paren c r, rfl, .nil, h, Same.refl _, rfl, by cases h; simp⟩
  | .comment r, ws, h => by
    cases h with
    | comment b r ws hb hw =>
      obtain ⟨cs, ws', objs', rfl, h1, h2, h3, h4, h5⟩ := items_lead r ws hw
      refine ⟨.comment b :: cs, ws', objs', rfl, .cons b cs hb h1, h2, ?_, h4, h5⟩
      rw [itemVals]
      cases hv : itemVals r with
      | error e => rw [hv] at h3; exact h3
      | ok l =>
        rw [hv] at h3
        cases hw : itemVals objs' with
        | error e => rw [hw] at h3; exact h3
        | ok l' =>
          rw [hw] at h3
          show List.filter solid (.comment :: l) = _
          rw [List.filter_cons_of_neg (by simp [solid])]; exact h3

theorem setSem_read {id : Option String} {p : P (List SetObj)} {v w : Py (List SetObj)} {ws more : List Word}
    (h : Rd p w ws more) (hs : Same v w) :
    Rd (do let objs ← p; act (setSem id objs)) (semVal id v) ws more := by
  cases w with
  | error x =>
    cases v with
    | ok l => exact hs.elim
    | error e =>
      obtain rfl : e = x := hs
      have := Rd.bindRaise (vs := []) (f := fun objs => act (setSem id objs)) (by simpa using h)
      rw [List.append_nil] at this
      exact this
  | ok l' =>
    cases v with
    | error e => exact hs.elim
    | ok l =>
      have := Rd.bind (vs := []) (f := fun objs => act (setSem id objs)) (by simpa using h) (Rd.act _ more)
      rw [List.append_nil, ← setSem_solid (id := id) (show l.filter solid = l'.filter solid from hs)] at this
      exact this

theorem set_read (hg : NameGuard g) {inner : P Expr} {n : Nat}
    (hin : ∀ c ws more, ChainWords c ws → chainDepth c ≤ n → ChainStop more → Rd inner (chainVal c) ws more)
    {s : SetSyn} {ws more : List Word} (h : SetWords s ws) (hd : setDepth s ≤ n) (hm : SetStop more) :
    Rd (setP g inner) (setVal s) ws more := by
  cases h with
  | mk id objs cs is ws hc hi ho =>
    rw [setDepth] at hd
    have hsv : setVal (.mk id objs) = semVal id (itemVals objs) := by
      rw [setVal]; cases itemVals objs <;> rfl
    rw [hsv]
    apply Rd.skip
    cases hi with
    | none =>
      obtain ⟨cs', ws', objs', rfl, h1, h2, h3, h4, h5⟩ := items_lead objs ws ho
      have hn : NoComment (ws' ++ more) := by
        intro w hw
        cases ws' with
        | nil => exact hm.noComment w hw
        | cons x l =>
          obtain ⟨s, hs, e⟩ := h5 w hw
          refine ⟨s, ?_, e⟩
          simp only [List.mem_cons, List.not_mem_nil, or_false] at hs
          rcases hs with rfl | rfl <;> decide
      obtain ⟨v, hv⟩ := optComments_read (comments_append hc h1) hn
      obtain ⟨w, i1, i2⟩ := items_read hg hin objs' [] ws' more .nil h2 (by omega) hm
      rw [show cs ++ ([] ++ (cs' ++ ws')) = (cs ++ cs') ++ ws' by simp]
      refine Rd.bind hv ?_
      have hid : Fl (setId g) (ws' ++ more) := by
        apply Fl.skip; apply Fl.bind
        cases ws' with
        | nil => exact key_stop (by decide) hm
        | cons x l =>
          obtain ⟨s, hs, e⟩ := h5 x (by simp)
          subst e
          have : ∀ s ∈ ["ip", "("], "id".toList.isPrefixOf s.toList = false ∧ s.toList.isPrefixOf "id".toList = false := by decide +kernel
          exact key_other (this s hs).1 (this s hs).2 _
      refine Rd.bind (ws := []) (Rd.optNone hid) ?_
      have hs : Same (itemVals objs) w := by
        revert h3 i2
        cases itemVals objs <;> cases itemVals objs' <;> cases w <;> simp only [Same]
        · exact fun a b => a.trans b
        all_goals first | exact fun a _ => a.elim | exact fun _ b => b.elim | exact fun a b => a.trans b
      exact setSem_read (id := none) i1 hs
    | some w hw =>
      have hn : NoComment ([.key "id", .id w] ++ ws ++ more) := by
        intro x hx; simp at hx; exact ⟨"id", by decide, hx.symm⟩
      obtain ⟨v, hv⟩ := optComments_read hc hn
      obtain ⟨u, i1, i2⟩ := items_read hg hin objs [] ws more .nil ho hd hm
      refine Rd.bind hv ?_
      refine Rd.bind (ws := [.key "id", .id w]) (id_read hg hw _).opt ?_
      exact setSem_read (id := some (String.ofList w)) i1 i2

theorem chain_items_read (hg : NameGuard g) {inner : P Expr} {n : Nat}
    (hin : ∀ c ws more, ChainWords c ws → chainDepth c ≤ n → ChainStop more → Rd inner (chainVal c) ws more) :
    ∀ (c : Chain) (k : Nat) (ws more : List Word), ChainWords c ws → chainDepth c ≤ n + 1 → chainDepth c ≤ k → ChainStop more →
      Rd (alt (exprR g (setP g inner) k) (do let y ← setP g inner; pure [.set y])) (chainItems c) ws more ∧
      (∀ s o c', c = .more s o c' → Rd (exprR g (setP g inner) k) (chainItems c) ws more) ∧
      (∀ s, c = .one s → (∀ x, setVal s = .ok x → Fl (exprR g (setP g inner) k) (ws ++ more)) ∧
        ∀ x, setVal s = .error x → Rd (exprR g (setP g inner) k) (.error x) ws more)
  | .one s, k, ws, more, h, hn, hk, hm => by
    cases h with
    | one _ _ hs =>
      rw [chainDepth] at hn hk
      have hr := set_read hg hin (more := more) hs (by omega) hm.set
      cases k with
      | zero => omega
      | succ k =>
        have h1 : ∀ x, setVal s = .ok x → Fl (exprR g (setP g inner) (k + 1)) (ws ++ more) := by
          intro x hx
          rw [hx] at hr
          rw [exprR]
          apply Fl.skip
          exact Fl.after hr (Fl.bind (Fl.many1 (Fl.bind (op_no hm))))
        have h2 : ∀ x, setVal s = .error x → Rd (exprR g (setP g inner) (k + 1)) (.error x) ws more := by
          intro x hx
          rw [hx] at hr
          rw [exprR]
          apply Rd.skip
          have := Rd.bindRaise (vs := []) (f := fun x => (do
            let l ← many1 (do
              let o ← opP g
              let r ← alt (exprR g (setP g inner) k) (do
                let y ← setP g inner
                pure [.set y])
              pure (.op o :: r))
            pure (.set x :: l.headD []))) (by simpa using hr)
          rw [List.append_nil] at this
          exact this
        refine ⟨?_, by rintro _ _ _ ⟨⟩, by rintro _ ⟨⟩; exact ⟨h1, h2⟩⟩
        rw [chainItems]
        cases hx : setVal s with
        | error x => exact Rd.altOk (h2 x hx)
        | ok x =>
          refine Rd.altFail (h1 x hx) ?_
          rw [hx] at hr
          have := Rd.bind (vs := []) (f := fun y => (pure [.set y] : P (List Item))) (by simpa using hr) (Rd.pure _ more)
          rw [List.append_nil] at this
          exact this
  | .more s o c, k, ws, more, h, hn, hk, hm => by
    cases h with
    | more _ _ _ ws vs hs hc =>
      rw [chainDepth] at hn hk
      cases k with
      | zero => omega
      | succ k =>
        have hr := set_read hg hin (more := .key (opWord o) :: vs ++ more) hs (by omega)
          (by intro w hw; simp at hw; exact Or.inr ⟨o, hw.symm⟩)
        obtain ⟨ih, -⟩ := chain_items_read hg hin c k vs more hc (by omega) (by omega) hm
        have main : Rd (exprR g (setP g inner) (k + 1)) (chainItems (.more s o c)) (ws ++ .key (opWord o) :: vs) more := by
          rw [exprR, chainItems]
          apply Rd.skip
          cases hx : setVal s with
          | error x => rw [hx] at hr; exact Rd.bindRaise hr
          | ok x =>
            rw [hx] at hr
            refine Rd.bind hr ?_
            cases hi : chainItems c with
            | error e =>
              rw [hi] at ih
              have := Rd.bindRaise (vs := []) (more := more) (ws := .key (opWord o) :: vs) (f := fun (l : List (List Item)) => (pure (.set x :: l.headD []) : P (List Item)))
                (Rd.many1Raise (p := (do
                  let o ← opP g
                  let r ← alt (exprR g (setP g inner) k) (do
                    let y ← setP g inner
                    pure [.set y])
                  pure (.op o :: r))) (x := e)
                  (Rd.bind (ws := [.key (opWord o)]) (vs := vs) (op_read hg o _) (by
                    have := Rd.bindRaise (vs := []) (f := fun r => (pure (.op o :: r) : P (List Item))) (by simpa using ih)
                    rw [List.append_nil] at this
                    simpa using this)))
              rw [List.append_nil] at this
              exact this
            | ok l =>
              rw [hi] at ih
              have h1 : Rd (do
                  let o ← opP g
                  let r ← alt (exprR g (setP g inner) k) (do
                    let y ← setP g inner
                    pure [.set y])
                  pure (.op o :: r)) (.ok (.op o :: l)) (.key (opWord o) :: vs) more := by
                refine Rd.bind (ws := [.key (opWord o)]) (vs := vs) (op_read hg o _) ?_
                have := Rd.bind (vs := []) (f := fun r => (pure (.op o :: r) : P (List Item))) (by simpa using ih) (Rd.pure _ more)
                rw [List.append_nil] at this
                exact this
              have h2 := Rd.many1 (vs := []) (by simpa using h1) (Rd.manyNil (Fl.bind (op_no hm)))
              have := Rd.bind (vs := []) (f := fun (l : List (List Item)) => (pure (.set x :: l.headD []) : P (List Item))) (by simpa using h2) (Rd.pure _ more)
              rw [List.append_nil] at this
              exact this
        exact ⟨Rd.altOk main, by rintro _ _ _ ⟨⟩; exact main, by rintro _ ⟨⟩⟩

theorem exprSem_one (x : Expr) : exprSem [.set x] = .ok x := by
  simp [exprSem, reduceAll, reduceOnce]

theorem expr_read (hg : NameGuard g) : ∀ (n : Nat) (c : Chain) (ws more : List Word), ChainWords c ws → chainDepth c ≤ n → ChainStop more →
    Rd (expr g n) (chainVal c) ws more
  | 0, c, ws, more, h, hd, hm => by cases c <;> simp [chainDepth] at hd
  | n + 1, c, ws, more, h, hd, hm => by
    have hin := fun c ws more h hd hm => expr_read hg n c ws more h hd hm
    obtain ⟨-, h1, h2⟩ := chain_items_read hg hin c (n + 1) ws more h hd hd hm
    rw [expr]
    apply Rd.skip
    cases c with
    | one s =>
      obtain ⟨h2, h3⟩ := h2 s rfl
      rw [chainVal, chainItems]
      cases hx : setVal s with
      | error x =>
        apply Rd.altOk
        have := Rd.bindRaise (vs := []) (f := fun l => act (exprSem l)) (by simpa using h3 x hx)
        rw [List.append_nil] at this
        exact this
      | ok x =>
        refine Rd.altFail (Fl.bind (h2 x hx)) ?_
        show Rd _ (exprSem [.set x]) ws more
        rw [exprSem_one, ← hx]
        cases h with
        | one _ _ hs => exact set_read hg hin hs (by rw [chainDepth] at hd; omega) hm.set
    | more s o c =>
      have h1 := h1 s o c rfl
      apply Rd.altOk
      rw [chainVal]
      cases hi : chainItems (.more s o c) with
      | error x =>
        rw [hi] at h1
        have := Rd.bindRaise (vs := []) (f := fun l => act (exprSem l)) (by simpa using h1)
        rw [List.append_nil] at this
        exact this
      | ok l =>
        rw [hi] at h1
        have := Rd.bind (vs := []) (f := fun l => act (exprSem l)) (by simpa using h1) (Rd.act _ more)
        rw [List.append_nil] at this
        exact this

theorem parse_read (hg : NameGuard g) {n : Nat} {c : Chain} {ws : List Word} {t : Text} (h : ChainWords c ws) (ht : Written ws t)
    (hd : chainDepth c ≤ n) :
    parse g n t = match parsed c with
      | .ok e => .ok e []
      | .error x => .raise x := by
  have := expr_read hg n c ws [] h hd (by intro w hw; simp at hw) t (by simpa using ht)
  have hp : parsed c = match chainVal c with | .ok e => .ok (.block e) | .error x => .error x := by
    unfold parsed chainVal
    cases chainItems c with
    | error e => rfl
    | ok l =>
      show (match exprSem l with | .error e => Except.error e | .ok e => .ok (Expr.block e)) = match exprSem l with | .ok e => .ok (.block e) | .error x => .error x
      cases exprSem l <;> rfl
  rw [hp]
  unfold parse
  cases hv : chainVal c with
  | error x => rw [hv] at this; simp only at this; rw [this]
  | ok e =>
    rw [hv] at this
    obtain ⟨t', e1, e2, -⟩ := this
    rw [e1]
    simp only
    rw [if_pos e2.nil_drop]

end Acltk.CafText
