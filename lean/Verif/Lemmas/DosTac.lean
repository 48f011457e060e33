import Verif.Lemmas.DosPat
import Lean.Elab.Tactic
/-!
# Stepping through two rules side by side
-/
namespace Acltk.Dos
open Acltk Acltk.Lookup Acltk.Peg

variable {ks : List String}

theorem Opt2.eq {α : Type} {a b : Option α} (h : Opt2 Eq a b) : a = b := by
  cases h with
  | none => rfl
  | some h => rw [h]

theorem All2.eq {α : Type} {a b : List α} (h : All2 Eq a b) : a = b := by
  induction h with
  | nil => rfl
  | cons h _ ih => rw [h, ih]

theorem All2.refl {α : Type} {R : α → α → Prop} (h : ∀ a, R a a) (l : List α) : All2 R l l := by
  induction l with
  | nil => exact .nil
  | cons a l ih => exact .cons (h a) ih

theorem Opt2.refl {α : Type} {R : α → α → Prop} (h : ∀ a, R a a) (l : Option α) : Opt2 R l l := by
  cases l with
  | none => exact .none
  | some a => exact .some (h a)

section
variable {α : Type} {p p' : P α}

theorem Sim.optEq {M : Mode} (h : Sim ks M Eq p p') : Sim ks .any Eq (Peg.opt p) (Peg.opt p') := (Sim.opt h).mono (fun _ _ h => h.eq)

theorem Sim.optEqE (h : Sim ks .even Eq p p') : Sim ks .even Eq (Peg.opt p) (Peg.opt p') := (Sim.optE h).mono (fun _ _ h => h.eq)

theorem Sim.manyEq (h : Sim ks .even Eq p p') : Sim ks .even Eq (Peg.many p) (Peg.many p') := (Sim.many h).mono (fun _ _ h => h.eq)

theorem Sim.manyEqS (h : Sim ks .strict Eq p p') : Sim ks .even Eq (Peg.many p) (Peg.many p') := Sim.manyEq h.toEven

theorem Sim.manyS {β : Type} {R : α → β → Prop} {q : P β} (h : Sim ks .strict R p q) : Sim ks .even (All2 R) (Peg.many p) (Peg.many q) := Sim.many h.toEven

theorem Sim.many1Eq (h : Sim ks .strict Eq p p') : Sim ks .strict Eq (Peg.many1 p) (Peg.many1 p') :=
  (Sim.many1 (.inl rfl) h).mono (fun _ _ h => h.eq)

theorem Sim.aheadA {M : Mode} (h : Sim ks M Eq p p') : Sim ks .even Eq (Peg.ahead p) (Peg.ahead p') := Sim.ahead h
end

theorem Sim.chr' {c : Char} (h : c ≠ '\n' ∧ c ≠ '\r') : Sim ks .strict Eq (FwsmText.chr c) (FwsmText.chr c) := Sim.chr h.1 h.2

theorem Sim.tok' {g : Guard} {s : String} (h : NextChar g ∧ Plain s.toList ∧ s.toList ≠ []) : Sim ks .strict Eq (Peg.tok g s) (Peg.tok g s) :=
  Sim.tok h.1 h.2

theorem Sim.oneOf' {g : Guard} {l : List String} (h : NextChar g ∧ ∀ s ∈ l, Plain s.toList ∧ s.toList ≠ []) :
    Sim ks .strict Eq (Peg.oneOf g l) (Peg.oneOf g l) := Sim.oneOf h.1 h.2

theorem Sim.referWs {β : Type} {g : Guard} {d : Dict String β} (h : NextChar g ∧ NamesOk d) :
    Sim ks .even Eq (AclText.refer g wsOrNl d) (AclText.refer g wsOrNl d) := Sim.refer h.1 termWs h.2

theorem Sim.referSlash {β : Type} {g : Guard} {d : Dict String β} (h : NextChar g ∧ NamesOk d) :
    Sim ks .even Eq (AclText.refer g slash d) (AclText.refer g slash d) := Sim.refer h.1 termSlash h.2

theorem Sim.intE : Sim ks .strict Eq Peg.intP Peg.intP := Sim.intP.mono (fun _ _ h => h.eq)
theorem Sim.identE : Sim ks .strict Eq Peg.identifier Peg.identifier := Sim.identifier.mono (fun _ _ h => h.eq)
theorem Sim.objE : Sim ks .even Eq Peg.objName Peg.objName := Sim.objName.mono (fun _ _ h => h.eq)
theorem Sim.stringE : Sim ks .strict Eq Peg.stringP Peg.stringP := Sim.stringP.mono (fun _ _ h => h.eq)
theorem Sim.patE {r : Re} (hr : NoEol r) : Sim ks .even Eq (pat r) (pat r) := (Sim.patWord hr).mono (fun _ _ h => h.eq)
theorem Sim.patES {r : Re} (hr : NoEol r) (hn : NonEmpty r = true) : Sim ks .strict Eq (pat r) (pat r) :=
  (Sim.patWordS hr hn).mono (fun _ _ h => h.eq)

section
variable {α γ δ : Type} {S : γ → δ → Prop} {p p' : P α}

theorem Sim.bindAE {M : Mode} {f : α → P γ} {f' : α → P δ} (h : Sim ks M Eq p p') (hf : ∀ v, Sim ks .any S (f v) (f' v)) :
    Sim ks .any S (p >>= f) (p' >>= f') := Sim.bindA h (fun v _ e => e ▸ hf v)

theorem Sim.bindSE {f : α → P γ} {f' : α → P δ} (h : Sim ks .strict Eq p p') (hf : ∀ v, Sim ks .any S (f v) (f' v)) :
    Sim ks .strict S (p >>= f) (p' >>= f') := Sim.bindS h (fun v _ e => e ▸ hf v)

theorem Sim.bindTE {M : Mode} {f : α → P γ} {f' : α → P δ} (h : Sim ks M Eq p p') (hf : ∀ v, Sim ks .strict S (f v) (f' v)) :
    Sim ks .strict S (p >>= f) (p' >>= f') := Sim.bindT h (fun v _ e => e ▸ hf v)

theorem Sim.bindEE {f : α → P γ} {f' : α → P δ} (h : Sim ks .even Eq p p') (hf : ∀ v, Sim ks .even S (f v) (f' v)) :
    Sim ks .even S (p >>= f) (p' >>= f') := Sim.bindE h (fun v _ e => e ▸ hf v)

theorem Sim.bindAW {M : Mode} {f : List Char → P γ} {f' : List Char → P δ} {p p' : P (List Char)} (h : Sim ks M Word p p')
    (hf : ∀ v, Plain v → Sim ks .any S (f v) (f' v)) : Sim ks .any S (p >>= f) (p' >>= f') :=
  Sim.bindA h (fun v _ e => e.1 ▸ hf v e.2)

theorem Sim.bindSW {f : List Char → P γ} {f' : List Char → P δ} {p p' : P (List Char)} (h : Sim ks .strict Word p p')
    (hf : ∀ v, Plain v → Sim ks .any S (f v) (f' v)) : Sim ks .strict S (p >>= f) (p' >>= f') :=
  Sim.bindS h (fun v _ e => e.1 ▸ hf v e.2)

theorem Sim.bindTW {M : Mode} {f : List Char → P γ} {f' : List Char → P δ} {p p' : P (List Char)} (h : Sim ks M Word p p')
    (hf : ∀ v, Plain v → Sim ks .strict S (f v) (f' v)) : Sim ks .strict S (p >>= f) (p' >>= f') :=
  Sim.bindT h (fun v _ e => e.1 ▸ hf v e.2)

theorem Sim.pureE {v : α} : Sim ks .even Eq (Pure.pure v : P α) (Pure.pure v) := Sim.pure rfl
end


/-! ## the tactic

`sim` walks through the definition of a rule: the lemma `leaf_X` is used for the rule `X`, conditions are left to `sim_side`. -/

/-- Conditions of the lemmas. -/
syntax "sim_side" : tactic
macro_rules | `(tactic| sim_side) => `(tactic| decide +kernel)
macro_rules | `(tactic| sim_side) => `(tactic| assumption)

open Lean Meta Elab Tactic in
/-- The lemma about a rule. -/
def leafName (n : Name) : Name := `Acltk.Dos ++ Name.mkSimple ("leaf_" ++ (n.toString).replace "." "_")

open Lean in
/-- strict, even, any -/
def modeRank (e : Expr) : Nat := if e.isConstOf ``Mode.strict then 0 else if e.isConstOf ``Mode.even then 1 else 2

open Lean Meta in
/-- The mode a lemma states. -/
def leafMode? (n : Name) : MetaM (Option (Nat × Bool)) := do
  match (← getEnv).find? (leafName n) with
  | none => return none
  | some c =>
    let rec go (e : Expr) : Expr := match e with
      | .forallE _ _ b _ => go b
      | e => e
    let r := go c.type
    let as := r.getAppArgs
    if r.isAppOf ``Sim then return some (modeRank as[3]!, as[4]!.isAppOf ``Eq) else return none

open Lean Meta in
/-- How the rule moves. -/
partial def ruleMode (e : Expr) : MetaM Nat := do
  let e ← whnfCore e
  let as := e.getAppArgs
  match e.getAppFn with
  | .const n _ =>
    if n == ``Bind.bind && as.size = 6 then
      let a ← ruleMode as[4]!
      if a = 0 then return 0
      let b ← match as[5]! with
        | .lam _ _ b _ => ruleMode b
        | _ => pure 2
      if b = 0 then return 0
      return Nat.max a b
    else if n == ``Peg.alt then return Nat.max (← ruleMode as[1]!) (← ruleMode as[2]!)
    else if n == ``Peg.alts then
      let rec go (l : Expr) : MetaM Nat := do
        if l.isAppOf ``List.cons then return Nat.max (← ruleMode l.getAppArgs[1]!) (← go l.getAppArgs[2]!)
        else return 0
      go as[1]!
    else if n == ``Peg.opt then return Nat.max 1 (← ruleMode as[1]!)
    else if n == ``Peg.many || n == ``Peg.ahead || n == ``Peg.act || n == ``Pure.pure then return 1
    else if n == ``Peg.many1 || n == ``Peg.failP then return 0
    else if n == ``ite then return Nat.max (← ruleMode as[3]!) (← ruleMode as[4]!)
    else
      match ← leafMode? n with
      | some m => return m.1
      | none =>
        match ← delta? e with
        | some e' => ruleMode e'
        | none => return 2
  | .lam _ _ b _ => ruleMode b
  | _ => return 2

open Lean Meta in
/-- Whether the values are shown to be equal. -/
def ruleEq (e : Expr) : MetaM Bool := do
  let e := e.headBeta.consumeMData
  match e.getAppFn with
  | .const n _ => match ← leafMode? n with
    | some m => return m.2
    | none => return true
  | _ => return true

open Lean Meta in
/-- Whether there is a lemma that says more about a word. -/
def ruleWord (e : Expr) : MetaM (Option Name) := do
  match e.headBeta.consumeMData.getAppFn with
  | .const n _ =>
    let w := `Acltk.Dos ++ Name.mkSimple ("word_" ++ (n.toString).replace "." "_")
    return if (← getEnv).contains w then some w else none
  | _ => return none

open Lean Meta Elab Tactic in
/-- One step at a time. -/
partial def simCore (word : Bool) : TacticM Unit := withMainContext do
  let g ← getMainGoal
  let ty ← instantiateMVars (← g.getType)
  let ty := ty.consumeMData
  unless ty.isAppOf ``Sim do throwError "no Sim goal"
  let as := ty.getAppArgs
  let M := modeRank as[3]!
  let p ← whnfCore as[5]!
  let q ← whnfCore as[6]!
  if p != as[5]! || q != as[6]! then
    let g' ← g.change (mkAppN ty.getAppFn (as.set! 5 p |>.set! 6 q))
    replaceMainGoal [g']
    return ← simCore word
  let ps := p.getAppArgs
  let next (l : List MVarId) : TacticM Unit := do
    let mut rest : List MVarId := []
    for x in l do
      setGoals [x]
      let t ← instantiateMVars (← x.getType)
      if t.isAppOf ``Sim then simCore word
      rest := rest ++ (← getGoals)
    setGoals rest
  let mode (n : Nat) : Expr := mkConst (if n = 0 then ``Mode.strict else if n = 1 then ``Mode.even else ``Mode.any)
  let apM (g : MVarId) (n : Name) (m : Option Nat) : TacticM (List MVarId) := withReducible do
    let e ← mkConstWithFreshMVarLevels n
    let (xs, bs, t) ← forallMetaTelescopeReducing (← inferType e) (some ((← inferType e).getNumHeadForalls))
    if let some m := m then
      for x in xs do
        if (← inferType x).isConstOf ``Mode then x.mvarId!.assign (mode m)
    unless (← isDefEq t (← g.getType)) || (← withTransparency .default (isDefEq t (← g.getType))) do throwError "{n} does not fit {← g.getType}"
    for x in xs, b in bs do
      if b.isInstImplicit && !(← x.mvarId!.isAssigned) then
        x.mvarId!.assign (← synthInstance (← instantiateMVars (← inferType x)))
    g.assign (← instantiateMVars (mkAppN e xs))
    let mut l : List MVarId := []
    for x in xs do
      let x ← instantiateMVars x
      if x.isMVar then
        if ← isProp (← inferType x) then l := l ++ [x.mvarId!]
    return l
  let ap (g : MVarId) (n : Name) : TacticM (List MVarId) := apM g n none
  let weaken (have_ : Nat) (k : MVarId → TacticM Unit) : TacticM Unit := do
    if have_ < M then
      if M = 2 then
        let l ← apM g ``Sim.toAny (some have_)
        k l[0]!
      else
        let l ← apM g ``Sim.toEven none
        k l[0]!
    else k g
  match p.getAppFn with
  | .const n _ =>
    if n == ``Bind.bind && ps.size = 6 then
      let m1 ← ruleMode ps[4]!
      let m ← ruleMode p
      if m < M && M = 1 then weaken m (fun g' => next [g'])
      else
        let isEq ← ruleEq ps[4]!
        if word then
          if let some w ← ruleWord ps[4]! then
            let lem := if M = 2 then ``Sim.bindAW else if m1 = 0 then ``Sim.bindSW else ``Sim.bindTW
            let l ← apM g lem (if m1 = 0 && M = 0 then none else some m1)
            let k ← apM l[0]! w none
            let (_, x') ← l[1]!.introNP 2
            return ← next (k ++ [x'])
        let lem := if M = 2 then ``Sim.bindAE else if M = 1 then ``Sim.bindEE else if m1 = 0 then ``Sim.bindSE else ``Sim.bindTE
        let lemG := if M = 2 then ``Sim.bindA else if M = 1 then ``Sim.bindE else if m1 = 0 then ``Sim.bindS else ``Sim.bindT
        let l ← apM g (if isEq then lem else lemG) (if lem == ``Sim.bindAE || lem == ``Sim.bindTE then some m1 else none)
        let mut hs := []
        for x in l do
          let t ← instantiateMVars (← x.getType)
          if t.isAppOf ``Sim then hs := hs ++ [x]
          else if t.isForall && isEq then
            let (_, x') ← x.introNP 1
            hs := hs ++ [x']
          else if t.isForall then
            let (_, x') ← x.introNP 3
            hs := hs ++ [x']
        next hs
    else if n == ``Peg.alt then next (← ap g ``Sim.alt)
    else if n == ``Peg.alts then
      if ps[1]!.isAppOf ``List.cons then next (← ap g ``Sim.altsCons) else next (← ap g ``Sim.altsNil)
    else if n == ``Pure.pure then
      weaken 1 (fun g' => do
        if as[4]!.isAppOf ``Eq then
          try next (← ap g' ``Sim.pureE) catch _ => next (← ap g' ``Sim.pure)
        else next (← ap g' ``Sim.pure))
    else if n == ``Peg.opt then
      let m ← ruleMode ps[1]!
      if M = 2 then
        next (← apM g (if as[4]!.isAppOf ``Eq then ``Sim.optEq else ``Sim.opt) (some m))
      else next (← ap g (if as[4]!.isAppOf ``Eq then ``Sim.optEqE else ``Sim.optE))
    else if n == ``Peg.many then
      weaken 1 (fun g' => do next (← ap g' (if as[4]!.isAppOf ``Eq then ``Sim.manyEq else ``Sim.many)))
    else if n == ``Peg.many1 && as[4]!.isAppOf ``Eq then
      weaken 0 (fun g' => do next (← ap g' ``Sim.many1Eq))
    else if n == ``Peg.ahead then
      let m ← ruleMode ps[1]!
      weaken 1 (fun g' => do next (← apM g' ``Sim.aheadA (some m)))
    else
      match ← leafMode? n with
      | some (m, _) =>
        weaken m (fun g' => do
          let l ← ap g' (leafName n)
          let mut rest : List MVarId := []
          for x in l do
            setGoals [x]
            evalTactic (← `(tactic| sim_side))
            rest := rest ++ (← getGoals)
          setGoals rest)
      | none =>
        match ← delta? p with
        | some p' =>
          match ← delta? q with
          | some q' =>
            let g' ← g.change (mkAppN ty.getAppFn (as.set! 5 p'.headBeta |>.set! 6 q'.headBeta))
            next [g']
          | none => throwError "stuck at {p}"
        | none => throwError "stuck at {p}"
  | _ => throwError "stuck at {p}"

/-- Stepping through a rule. -/
elab "sim" : tactic => simCore false

/-- Stepping through a rule, keeping that words have no line ends. -/
elab "simw" : tactic => simCore true

theorem word_Acltk_Peg_identifier : Sim ks .strict Word Peg.identifier Peg.identifier := Sim.identifier
theorem word_Acltk_Peg_objName : Sim ks .even Word Peg.objName Peg.objName := Sim.objName
theorem word_Acltk_Peg_stringP : Sim ks .strict Word Peg.stringP Peg.stringP := Sim.stringP

theorem leaf_Acltk_Peg_act {α : Type} {x : Py α} : Sim ks .even Eq (Peg.act x) (Peg.act x) := Sim.actEq
theorem leaf_Acltk_Peg_ws : Sim ks .strict Eq ws ws := Sim.ws
theorem leaf_Acltk_Peg_nl : Sim ks .strict Eq nl nl := Sim.nl
theorem leaf_Acltk_Peg_sp : Sim ks .strict Eq sp sp := Sim.sp
theorem leaf_Acltk_Peg_intP : Sim ks .strict Eq Peg.intP Peg.intP := Sim.intE
theorem leaf_Acltk_Peg_identifier : Sim ks .strict Eq Peg.identifier Peg.identifier := Sim.identE
theorem leaf_Acltk_Peg_objName : Sim ks .even Eq Peg.objName Peg.objName := Sim.objE
theorem leaf_Acltk_Peg_stringP : Sim ks .strict Eq Peg.stringP Peg.stringP := Sim.stringE
theorem leaf_Acltk_Peg_toeol : Sim ks .any Cr toeol toeol := Sim.toeol
theorem leaf_Acltk_Peg_tok {g : Guard} {s : String} (hg : NextChar g) (h : Plain s.toList ∧ s.toList ≠ []) :
    Sim ks .strict Eq (tok g s) (tok g s) := Sim.tok hg h
theorem leaf_Acltk_Peg_oneOf {g : Guard} {l : List String} (hg : NextChar g) (h : ∀ s ∈ l, Plain s.toList ∧ s.toList ≠ []) :
    Sim ks .strict Eq (oneOf g l) (oneOf g l) := Sim.oneOf hg h
theorem leaf_Acltk_AclText_ip4 : Sim ks .strict Eq AclText.ip4 AclText.ip4 := Sim.ip4
theorem leaf_Acltk_AclText_ip6 : Sim ks .strict Eq AclText.ip6 AclText.ip6 := Sim.ip6
theorem leaf_Acltk_AclText_slashP : Sim ks .strict Eq AclText.slashP AclText.slashP := Sim.slashP
theorem leaf_Acltk_AclText_endOfWord : Sim ks .even Eq AclText.endOfWord AclText.endOfWord := Sim.endOfWord
theorem leaf_Acltk_FwsmText_colonP : Sim ks .strict Eq FwsmText.colonP FwsmText.colonP := Sim.colonP
theorem leaf_Acltk_FwsmText_chr {c : Char} (h : c ≠ '\n' ∧ c ≠ '\r') : Sim ks .strict Eq (FwsmText.chr c) (FwsmText.chr c) :=
  Sim.chr h.1 h.2
theorem leaf_Acltk_Peg_pat {r : Re} (hr : NoEol r) : Sim ks .even Eq (pat r) (pat r) := Sim.patE hr

/-! ## access lists -/
open Acltk.AclText

/-- The tables have names without line ends. -/
structure EnvOk (e : Env) : Prop where
  guard : NextChar e.guard
  names : NamesOk e.names
  netObjs : NamesOk e.netObjs
  netGroups : NamesOk e.netGroups
  svcObjs : NamesOk e.svcObjs
  svcGroups : NamesOk e.svcGroups
  portGroups : NamesOk e.portGroups
  icmpGroups : NamesOk e.icmpGroups
  protoGroups : NamesOk e.protoGroups
  timeRanges : NamesOk e.timeRanges

macro_rules | `(tactic| sim_side) => `(tactic| exact EnvOk.guard (by assumption))

theorem refer_ws {β : Type} {g : Guard} {d : Dict String β} (h : NextChar g) (hd : NamesOk d) :
    Sim ks .even Eq (refer g wsOrNl d) (refer g wsOrNl d) := Sim.refer h termWs hd

theorem refer_slash {β : Type} {g : Guard} {d : Dict String β} (h : NextChar g) (hd : NamesOk d) :
    Sim ks .even Eq (refer g slash d) (refer g slash d) := Sim.refer h termSlash hd


/-- Reference terminators. -/
class Term (term : Text → Bool) : Prop where
  ok : ∀ ks, TermOk ks term

instance : Term wsOrNl := ⟨fun _ => termWs⟩
instance : Term slash := ⟨fun _ => termSlash⟩

theorem leaf_Acltk_AclText_refer {β : Type} {g : Guard} {term : Text → Bool} {d : Dict String β} [ht : Term term] (h : NextChar g) (hd : NamesOk d) :
    Sim ks .even Eq (refer g term d) (refer g term d) := Sim.refer h (ht.ok ks) hd

/-- The table at hand. -/
macro "sim_table" : tactic => `(tactic| first
  | exact EnvOk.names (by assumption) | exact EnvOk.netObjs (by assumption) | exact EnvOk.netGroups (by assumption)
  | exact EnvOk.svcObjs (by assumption) | exact EnvOk.svcGroups (by assumption) | exact EnvOk.portGroups (by assumption)
  | exact EnvOk.icmpGroups (by assumption) | exact EnvOk.protoGroups (by assumption) | exact EnvOk.timeRanges (by assumption))
macro_rules | `(tactic| sim_side) => `(tactic| sim_table)

end Acltk.Dos
