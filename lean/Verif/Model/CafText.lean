import Verif.Model.Peg
import Verif.Model.Caf
import Verif.Model.CafComment
import Verif.Model.Mask
/-!
# CAF filters from the text

caf.bnf with the semantic actions of cafSemantics.py, as `cafBlock._parse` runs it (cafObjects.py:28-43): the
parser is created without a `whitespace` setting, so white space is skipped in front of tokens and
at the beginning of every rule, and with `nameguard=True`.  White space is that of ASCII.
The recursion of the parser has a frame budget.
-/
namespace Acltk.CafText
open Acltk Acltk.Lookup Acltk.Peg Acltk.Caf

/-- The white space skipped by the tokenizer before a token and on entering a rule. -/
def skip {α : Type} (p : P α) : P α := fun t => p (t.dropWhile isSpace)

/-- A token of the grammar. -/
def key (g : Guard) (s : String) : P String := skip (tok g s)

/-- `comment` (caf.bnf:17-19, caf.py:102-105); its text is dropped (cafSemantics.py:125-126). -/
def commentP : P Unit := skip (fun t =>
  match comment t with
  | some r => .ok () r
  | none => .fail)

/-- `comments = {comment}+` (caf.bnf:13-15, cafSemantics.py:122-123) -/
def commentsP : P Unit := skip (do
  let _ ← many1 commentP
  pure ())

/-- `op` (caf.bnf:21-24) -/
def opP (g : Guard) : P Op := skip (alts
  [ do
      let _ ← key g "union"
      pure .union,
    do
      let _ ← key g "intersect"
      pure .intersect,
    do
      let _ ← key g "except"
      pure .except ])

/-- `direction` (caf.bnf:35-38) -/
def direction (g : Guard) : P Dir := skip (alts
  [ do
      let _ ← key g "src"
      pure .src,
    do
      let _ ← key g "dst"
      pure .dst ])

/-- The keywords of `network` in their order and what they stand for (caf.bnf:41, cafSemantics.py:13-24). -/
def anyKeys : List (String × Host) :=
  [("ANY4", .cafAny4), ("ANY6", .cafAny6), ("ANY", .cafAny), ("any4", .any4), ("any6", .any6), ("any", .any)]

/-- `NetworkHost(address)` or `Network(address, netmask)` (cafSemantics.py:25-27). -/
def addressSem (a : List Char) : Option (List Char) → Py Host
  | none =>
    match ipAddress a with
    | .ok x => .ok (.host x)
    | .error e => .error e
  | some m =>
    match mkNetwork a m with
    | .ok n => .ok (.net n)
    | .error e => .error e

/-- `network` (caf.bnf:40-43, cafSemantics.py:12-27) -/
def network (g : Guard) : P Host := skip (alt
  (alts (anyKeys.map (fun kh => do
    let _ ← key g kh.1
    pure kh.2)))
  (do
    let a ← alt (skip (pat ip4Re)) (skip (pat ip6Re))
    let m ← opt (do
      let _ ← key g "/"
      skip (pat (.plus Char.isDigit)))
    act (addressSem a m)))

/-- `net` (caf.bnf:45-47, cafSemantics.py:78-84) -/
def net (g : Guard) : P Host := skip (do
  let l ← many1 (network g)
  pure (netSem l))

/-- `set_ip` (caf.bnf:49-51) -/
def setIp (g : Guard) : P SetObj := skip (do
  let _ ← key g "ip"
  let d ← direction g
  let n ← net g
  pure (.ip d n))

/-- The characters of `pattern` (caf.bnf:9) -/
def isPatternChar (c : Char) : Bool := c.isAlphanum || "_-.?*[]!/".toList.contains c

/-- `set_id` (caf.bnf:53-55, cafSemantics.py:86-87) -/
def setId (g : Guard) : P (List Char) := skip (do
  let _ ← key g "id"
  skip (pat (.plus isPatternChar)))

/-- `set_expr` (caf.bnf:57-59, cafSemantics.py:75-76) -/
def setExpr (g : Guard) (inner : P Expr) : P SetObj := skip (do
  let _ ← key g "("
  let e ← inner
  let _ ← key g ")"
  pure (.block (.block e)))

/-- `set_r` (caf.bnf:61-65, cafSemantics.py:117-120) -/
def setR (g : Guard) (inner : P Expr) : P SetObj := skip (alts
  [ setIp g,
    setExpr g inner,
    do
      commentsP
      pure .comment ])

/-- `set` (caf.bnf:67-68, cafSemantics.py:89-115) -/
def setP (g : Guard) (inner : P Expr) : P Expr := skip (do
  let _ ← opt commentsP
  let id ← opt (setId g)
  let objs ← many (setR g inner)
  act (setSem (id.map String.ofList) objs))

/-- `expr_r = set {op (expr_r|set)}+` (caf.bnf:31-33, cafSemantics.py:70-73): only the first round of the
closure is kept. -/
def exprR (g : Guard) (set : P Expr) : Nat → P (List Item)
  | 0 => act (.error .recursion)
  | n + 1 => skip (do
    let x ← set
    let l ← many1 (do
      let o ← opP g
      let r ← alt (exprR g set n) (do
        let y ← set
        pure [.set y])
      pure (.op o :: r))
    pure (.set x :: l.headD []))

/-- `expr` (caf.bnf:26-29, cafSemantics.py:29-68) with a budget of frames. -/
def expr (g : Guard) : Nat → P Expr
  | 0 => act (.error .recursion)
  | n + 1 => skip (alt
      (do
        let l ← exprR g (setP g (expr g n)) (n + 1)
        act (exprSem l))
      (setP g (expr g n)))

/-- `grammar = @:expr $` (caf.bnf:3-5, cafSemantics.py:128-129): `cafBlock.fromString`. -/
def parse (g : Guard) (fuel : Nat) (t : Text) : Res Expr :=
  match expr g fuel t with
  | .ok e r => if r.dropWhile isSpace = [] then .ok (.block e) [] else .fail
  | .fail => .fail
  | .raise x => .raise x

end Acltk.CafText
