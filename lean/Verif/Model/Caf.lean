import Verif.Model.Rule
/-!
# CAF filters: expressions, evaluation and the parser semantics

cafObjects.py and cafSemantics.py.  Verbose printing is left out (it has no effect on results).
-/
namespace Acltk.Caf
open Acltk

/-- The three operators, caf.bnf:21-24. -/
inductive Op where
  | union
  | intersect
  | except
  deriving DecidableEq, Repr

/-- What CAF semantics build: an `ACLRule`, a `cafBlock` (cafObjects.py:6-27) or a `cafOp`
(cafObjects.py:65-122). -/
inductive Expr where
  | rule (r : Rule)
  | block (e : Expr)
  | op (o : Op) (a b : Expr)
  deriving Repr

/-- `block(n)` in `cafOp.__init__`, cafObjects.py:74-77. -/
def wrap : Expr → Expr
  | .rule r => .block (.rule r)
  | e => e

/-- `cafOp.__init__`, cafObjects.py:66-80. -/
def mkOp (o : Op) (a b : Expr) : Expr := .op o (wrap a) (wrap b)

/-- `x.run(rules)`: `cafBlock.run` (cafObjects.py:16-25) and `cafOp*.run` (93-122).  An `ACLRule`
has no method `run`.  `a` is run before `b`. -/
def run : Nat → (Oid → Entry) → List Oid → Expr → Py (List Oid)
  | 0, _, _, _ => .error .recursion
  | _ + 1, _, _, .rule _ => .error .attribute
  | fuel + 1, heap, rules, .block (.rule r) => rulesFilter fuel heap rules [r]
  | fuel + 1, heap, rules, .block e => run fuel heap rules e
  | fuel + 1, heap, rules, .op o a b =>
    match run fuel heap rules a with
    | .error e => .error e
    | .ok x =>
      match run fuel heap rules b with
      | .error e => .error e
      | .ok y =>
        match o with
        | .union => .ok (setUnion x y)
        | .intersect => .ok (setInter x y)
        | .except => .ok (setDiff x y)

/-- `ACLConfig.filter(caf)`, aclObjects.py:1368-1380: the access rules, then all NAT objects of
sections 1, 2, 3. -/
def configFilter : Nat → (Oid → Entry) → List Oid → (List Oid × List Oid × List Oid) → Expr → Py (List Oid)
  | 0, _, _, _, _ => .error .recursion
  | fuel + 1, heap, rules, (n1, n2, n3), caf =>
    match run fuel heap rules caf with
    | .error e => .error e
    | .ok r =>
      match run fuel heap (n1 ++ n2 ++ n3) caf with
      | .error e => .error e
      | .ok r' => .ok (setUnion (setUnion [] r) r')

/-! ## the semantics methods -/

/-- An element of the flat list handed to `expr`: operands at even, operators at odd positions. -/
inductive Item where
  | set (e : Expr)
  | op (o : Op)
  deriving Repr

/-- One pass of the `for` loops of `RealCafSemantics.expr` (cafSemantics.py:34-45 with
`p = intersect`, 50-64 with `p = union/except`): the first operator accepted by `p` replaces
itself and its two neighbours by a `cafOp`; `none` is the `else: break`.  Simplification: lists
that do not alternate (which the grammar never produces) are not reduced. -/
def reduceOnce (p : Op → Bool) : List Item → Option (List Item)
  | .set a :: .op o :: .set b :: rest =>
    if p o then some (.set (mkOp o a b) :: rest)
    else (reduceOnce p (.set b :: rest)).map (fun r => .set a :: .op o :: r)
  | _ => none

theorem reduceOnce_length {p : Op → Bool} : ∀ {l l' : List Item}, reduceOnce p l = some l' → l'.length + 2 = l.length
  | .set a :: .op o :: .set b :: rest, l', h => by
    unfold reduceOnce at h
    split at h
    · cases h; rfl
    · cases hr : reduceOnce p (.set b :: rest) with
      | none => rw [hr] at h; simp at h
      | some r => rw [hr] at h; simp at h; subst h; have := reduceOnce_length hr; simp at this ⊢; omega
  | [], _, h => by simp [reduceOnce] at h
  | [.set _], _, h => by simp [reduceOnce] at h
  | .op _ :: _, _, h => by simp [reduceOnce] at h
  | .set _ :: .set _ :: _, _, h => by simp [reduceOnce] at h
  | [.set _, .op _], _, h => by simp [reduceOnce] at h
  | .set _ :: .op _ :: .op _ :: _, _, h => by simp [reduceOnce] at h

/-- The `while True` loops of `expr`, cafSemantics.py:33-47 and 49-66. -/
def reduceAll (p : Op → Bool) (l : List Item) : List Item :=
  match _h : reduceOnce p l with
  | none => l
  | some l' => reduceAll p l'
termination_by l.length
decreasing_by have := reduceOnce_length _h; omega

/-- `RealCafSemantics.expr`, cafSemantics.py:29-68: intersections first, then union/except, then
`ast[0]`.  A single set (handed over as an object, not as a list) is returned as it is. -/
def exprSem (l : List Item) : Py Expr :=
  let l1 := reduceAll (fun o => o == .intersect) l
  let l2 := reduceAll (fun o => o == .union || o == .except) l1
  match l2 with
  | .set e :: _ => .ok e
  | .op _ :: _ => .error .type
  | [] => .error .index

/-- Directions, caf.bnf:35-38. -/
inductive Dir where
  | src
  | dst
  deriving DecidableEq, Repr

/-- What `set_r` delivers for each object of a set: None for comments, an AST with key `ip`, or
a cafBlock. -/
inductive SetObj where
  | comment
  | ip (d : Dir) (net : Host)
  | block (e : Expr)
  deriving Repr

/-- `RealCafSemantics.net`, cafSemantics.py:78-84. -/
def netSem : List Host → Host
  | [h] => h
  | l => .group "" l

/-- Lines 96-99 of cafSemantics.py: collect the ip clauses; `"ip" in i` on a cafBlock is a
TypeError. -/
def collectIps : List SetObj → Py (List (Dir × Host))
  | [] => .ok []
  | .comment :: rest => collectIps rest
  | .block _ :: _ => .error .type
  | .ip d h :: rest =>
    match collectIps rest with
    | .error e => .error e
    | .ok l => .ok ((d, h) :: l)

/-- Lines 101-113 of cafSemantics.py for one direction: no address means any, one address stays
as it is, several become a group. -/
def dirNode (d : Dir) (ips : List (Dir × Host)) : Host :=
  match (ips.filter (fun i => i.1 == d)).map (·.2) with
  | [] => .any
  | [h] => h
  | l => .group "" l

/-- `RealCafSemantics.set`, cafSemantics.py:89-115. -/
def setSem (id : Option String) (objs : List SetObj) : Py Expr :=
  let objects := objs.filter (fun o => match o with | .comment => false | _ => true)
  match objects with
  | [.block e] => .ok e
  | _ =>
    match collectIps objects with
    | .error e => .error e
    | .ok ips => .ok (.rule { id := id, src := ⟨dirNode .src ips, none⟩, dst := ⟨dirNode .dst ips, none⟩ })

/-! ## concrete syntax, as accepted by caf.bnf, and the bottom-up evaluation of the semantics -/

mutual
/-- `expr`/`expr_r`, caf.bnf:26-33: `set {op expr_r}`. -/
inductive Chain where
  | one (s : SetSyn)
  | more (s : SetSyn) (o : Op) (rest : Chain)
/-- `set`, caf.bnf:67-68. -/
inductive SetSyn where
  | mk (id : Option String) (objects : Items)
/-- The `{set_r}*` of a set, caf.bnf:61-65. -/
inductive Items where
  | nil
  | comment (rest : Items)
  | ip (d : Dir) (nets : List Host) (rest : Items)
  | paren (c : Chain) (rest : Items)
end

mutual
/-- The flat list `expr_r` produces (cafSemantics.py:70-73; TatSu splices the list of the inner
`expr_r` into the enclosing group). -/
def chainItems : Chain → Py (List Item)
  | .one s =>
    match setVal s with
    | .error e => .error e
    | .ok x => .ok [.set x]
  | .more s o rest =>
    match setVal s with
    | .error e => .error e
    | .ok x =>
      match chainItems rest with
      | .error e => .error e
      | .ok l => .ok (.set x :: .op o :: l)
/-- `set` -/
def setVal : SetSyn → Py Expr
  | .mk id objs =>
    match itemVals objs with
    | .error e => .error e
    | .ok l => setSem id l
/-- `set_r` for each object; `set_expr` (cafSemantics.py:75-76) wraps the value of the inner
`expr` in a cafBlock. -/
def itemVals : Items → Py (List SetObj)
  | .nil => .ok []
  | .comment rest =>
    match itemVals rest with
    | .error e => .error e
    | .ok l => .ok (.comment :: l)
  | .ip d nets rest =>
    match itemVals rest with
    | .error e => .error e
    | .ok l => .ok (.ip d (netSem nets) :: l)
  | .paren c rest =>
    match chainItems c with
    | .error e => .error e
    | .ok items =>
      match exprSem items with
      | .error e => .error e
      | .ok e =>
        match itemVals rest with
        | .error e => .error e
        | .ok l => .ok (.block (.block e) :: l)
end

/-- `RealCafSemantics.grammar`, cafSemantics.py:128-129: the parsed filter. -/
def parsed (c : Chain) : Py Expr :=
  match chainItems c with
  | .error e => .error e
  | .ok items =>
    match exprSem items with
    | .error e => .error e
    | .ok e => .ok (.block e)

end Acltk.Caf
