import Verif.Model.Caf
import Verif.Spec.RuleSpec
/-!
# Specification of CAF filters
-/
namespace Acltk

/-- Host `a` (filter side) hits host `b`: the comparison says True, given enough stack. -/
def Hit (a b : Host) : Prop := ∃ fuel, meet fuel a b = .ok true

/-- One side of a NAT object is hit: at least one of its nodes is present and all present nodes
are hit by the filter's corresponding side. -/
def SideHit (src dst : Host → Prop) (s : NatSide) : Prop :=
  ((∃ h, s.src = some (some h)) ∨ ∃ h, s.dst = some (some h)) ∧
  (∀ h, s.src = some (some h) → src h) ∧ (∀ h, s.dst = some (some h) → dst h)

/-- A triple (id, condition on the source, condition on the destination) selects an entry. -/
def Selects (id : Option String) (src dst : Host → Prop) : Entry → Prop
  | .rule r => IdsCompatible id r.id ∧ src r.src.host ∧ dst r.dst.host
  | .nat n => (∃ s, n.real = some s ∧ SideHit src dst s) ∨ (∃ s, n.mapped = some s ∧ SideHit src dst s)

/-- An entry as found in a configuration: the id of a rule is no pattern with degenerate
brackets, a NAT object has both sides. -/
def EntryOk : Entry → Prop
  | .rule r => SaneId r.id
  | .nat n => n.real.isSome ∧ n.mapped.isSome

/-- Nesting depth of the hosts of an entry is at most `D`. -/
def EntryDepth (D : Nat) : Entry → Prop
  | .rule r => r.src.host.depth ≤ D ∧ r.dst.host.depth ≤ D
  | .nat n => ∀ s, n.real = some s ∨ n.mapped = some s → ∀ h, s.src = some (some h) ∨ s.dst = some (some h) → h.depth ≤ D

namespace Caf

/-- The boolean reading of an expression: union is or, intersect is and, except is and-not. -/
def Sel : Expr → Entry → Prop
  | .rule f, x => Selects f.id (Hit f.src.host) (Hit f.dst.host) x
  | .block e, x => Sel e x
  | .op .union a b, x => Sel a x ∨ Sel b x
  | .op .intersect a b, x => Sel a x ∧ Sel b x
  | .op .except a b, x => Sel a x ∧ ¬ Sel b x

/-- The rules at the leaves of an expression. -/
inductive RuleIn : Rule → Expr → Prop
  | rule {r} : RuleIn r (.rule r)
  | block {r e} : RuleIn r e → RuleIn r (.block e)
  | opl {r o a b} : RuleIn r a → RuleIn r (.op o a b)
  | opr {r o a b} : RuleIn r b → RuleIn r (.op o a b)

/-- Expressions on which `run` can be called: a bare rule is always inside a block (the
constructors of `cafBlock` and `cafOp` and the top-level `grammar` see to that). -/
inductive Runnable : Expr → Prop
  | leaf {r} : Runnable (.block (.rule r))
  | block {e} : Runnable e → Runnable (.block e)
  | op {o a b} : Runnable a → Runnable b → Runnable (.op o a b)

/-- Height of an expression. -/
def Expr.height : Expr → Nat
  | .rule _ => 0
  | .block e => e.height + 1
  | .op _ a b => max a.height b.height + 1

/-- A filter rule as CAF semantics build it: no wildcards, the id no degenerate pattern, hosts
nested at most `K` deep. -/
def FilterRule (K : Nat) (f : Rule) : Prop :=
  SaneId f.id ∧ ¬ HasWild f.src.host ∧ ¬ HasWild f.dst.host ∧ f.src.host.depth ≤ K ∧ f.dst.host.depth ≤ K

/-! ## precedence -/

/-- A chain of operands joined by `intersect` only, grouped to the left. -/
inductive Term : List Item → Expr → Prop
  | one {e} : Term [.set e] e
  | snoc {l t e} : Term l t → Term (l ++ [.op .intersect, .set e]) (mkOp .intersect t e)

/-- A chain of terms joined by `union`/`except`, grouped to the left. -/
inductive Grouped : List Item → Expr → Prop
  | term {l t} : Term l t → Grouped l t
  | snoc {l c o m t} : Grouped l c → o ≠ .intersect → Term m t → Grouped (l ++ .op o :: m) (mkOp o c t)

/-- Operands and operators alternate, beginning and ending with an operand. -/
inductive Alternating : List Item → Prop
  | one {e} : Alternating [.set e]
  | cons {e o l} : Alternating l → Alternating (.set e :: .op o :: l)

/-! ## meaning of the concrete syntax -/

/-- The addresses given for a direction anywhere in a set. -/
def addrs (d : Dir) : Items → List Host
  | .nil => []
  | .comment rest => addrs d rest
  | .ip d' nets rest => (if d' = d then nets else []) ++ addrs d rest
  | .paren _ rest => addrs d rest

/-- A direction is unconstrained without address, otherwise one of its addresses must hit. -/
def DirCond (l : List Host) (h : Host) : Prop := l = [] ∨ ∃ a ∈ l, Hit a h

/-- The host classes the `network` rule of the CAF grammar can produce. -/
inductive CafHost : Host → Prop
  | any : CafHost .any
  | any4 : CafHost .any4
  | any6 : CafHost .any6
  | cafAny : CafHost .cafAny
  | cafAny4 : CafHost .cafAny4
  | cafAny6 : CafHost .cafAny6
  | host {a} : CafHost (.host a)
  | net {n} : CafHost (.net n)

/-- Number of parenthesised chains in a set. -/
def numParens : Items → Nat
  | .nil => 0
  | .comment r => numParens r
  | .ip _ _ r => numParens r
  | .paren _ r => numParens r + 1

/-- Number of ip clauses in a set. -/
def numIps : Items → Nat
  | .nil => 0
  | .comment r => numIps r
  | .ip _ _ r => numIps r + 1
  | .paren _ r => numIps r

mutual
/-- The meaning of a chain, read from left to right.  `pend R` is the meaning of everything
before the current product once the product turns out to be `R`; `prod Q` is the current product
once the next operand turns out to be `Q`.  `intersect` extends the product, `union` and `except`
close it. -/
def chainSel : Chain → ((Entry → Prop) → Entry → Prop) → ((Entry → Prop) → Entry → Prop) → Entry → Prop
  | .one s, pend, prod => pend (prod (setSel s))
  | .more s o rest, pend, prod =>
    match o with
    | .intersect => chainSel rest pend (fun Q x => prod (setSel s) x ∧ Q x)
    | .union => chainSel rest (fun R x => pend (prod (setSel s)) x ∨ R x) (fun Q => Q)
    | .except => chainSel rest (fun R x => pend (prod (setSel s)) x ∧ ¬ R x) (fun Q => Q)
/-- The meaning of a set: that of its parenthesised chain if it has one, otherwise id, source and
destination condition. -/
def setSel : SetSyn → Entry → Prop
  | .mk id objs =>
    match parenSel objs with
    | some P => P
    | none => Selects id (DirCond (addrs .src objs)) (DirCond (addrs .dst objs))
/-- The meaning of the first parenthesised chain of a set. -/
def parenSel : Items → Option (Entry → Prop)
  | .nil => none
  | .comment r => parenSel r
  | .ip _ _ r => parenSel r
  | .paren c _ => some (chainSel c (fun R => R) (fun Q => Q))
end

/-- The meaning of a CAF text. -/
def Meaning (c : Chain) : Entry → Prop := chainSel c (fun R => R) (fun Q => Q)

mutual
/-- Well-formed texts: what the grammar produces (networks of the right classes, at least one per
clause), ids without degenerate brackets, and a set either has no parenthesis, or consists of one
parenthesis without id and ip clauses (see C14 for the others). -/
def ChainOk : Chain → Prop
  | .one s => SetOk s
  | .more s _ rest => SetOk s ∧ ChainOk rest
def SetOk : SetSyn → Prop
  | .mk id objs => ItemsOk objs ∧ SaneId id ∧
      (numParens objs = 0 ∨ (numParens objs = 1 ∧ numIps objs = 0 ∧ id = none))
def ItemsOk : Items → Prop
  | .nil => True
  | .comment r => ItemsOk r
  | .ip _ nets r => nets ≠ [] ∧ (∀ h ∈ nets, CafHost h) ∧ ItemsOk r
  | .paren c r => ChainOk c ∧ ItemsOk r
end

end Caf
end Acltk
