import Verif.Model.Lookup
import Verif.Model.Port
/-!
# The parsing primitives of TatSu, as far as the grammars use them

The parsers are created with `whitespace=""` (fwsmObjects.py:26-27, iosObjects.py:55-57): nothing is
skipped between tokens.  A parse function either succeeds with a value and the rest of the text, or
fails (the caller may try another alternative), or raises: an exception of a semantic action other
than TatSu's own is not caught by the alternatives.
-/
namespace Acltk.Peg
open Acltk Acltk.Lookup

/-- The outcome of a grammar rule at a position. -/
inductive Res (α : Type) where
  | ok (a : α) (rest : Text)
  | fail
  | raise (e : PyErr)

/-- A grammar rule with its semantic action. -/
def P (α : Type) : Type := Text → Res α

/-- Running a rule on a text. -/
def P.run {α : Type} (p : P α) (t : Text) : Res α := p t

/-- Sequence. -/
def P.bind {α β : Type} (p : P α) (f : α → P β) : P β := fun t =>
  match p t with
  | .ok a r => f a r
  | .fail => .fail
  | .raise e => .raise e

instance : Monad P where
  pure a := fun t => .ok a t
  bind := P.bind

/-- `a | b`: the second alternative is tried from the same position iff the first one fails. -/
def alt {α : Type} (p q : P α) : P α := fun t =>
  match p t with
  | .fail => q t
  | r => r

/-- A rule that fails. -/
def failP {α : Type} : P α := fun _ => .fail

/-- `a | b | ...` -/
def alts {α : Type} : List (P α) → P α
  | [] => failP
  | p :: ps => alt p (alts ps)

/-- `[a]` -/
def opt {α : Type} (p : P α) : P (Option α) := fun t =>
  match p t with
  | .ok a r => .ok (some a) r
  | .fail => .ok none t
  | .raise e => .raise e

/-- `&a`: succeeds where `a` does, without moving. -/
def ahead {α : Type} (p : P α) : P Unit := fun t =>
  match p t with
  | .ok _ _ => .ok () t
  | .fail => .fail
  | .raise e => .raise e

/-- A semantic action that may raise. -/
def act {α : Type} (x : Py α) : P α := fun t =>
  match x with
  | .ok a => .ok a t
  | .error e => .raise e

/-- `{a}` / `{a}*`: a round that does not move is discarded and ends the closure. -/
def many {α : Type} (p : P α) (t : Text) : Res (List α) :=
  match p t with
  | .ok a r =>
    if r.length < t.length then
      match many p r with
      | .ok l s => .ok (a :: l) s
      | .fail => .fail
      | .raise e => .raise e
    else .ok [] t
  | .fail => .ok [] t
  | .raise e => .raise e
termination_by t.length

/-- `{a}+` -/
def many1 {α : Type} (p : P α) : P (List α) := fun t =>
  match p t with
  | .ok a r =>
    match many p r with
    | .ok l s => .ok (a :: l) s
    | .fail => .fail
    | .raise e => .raise e
  | .fail => .fail
  | .raise e => .raise e

/-- A token. -/
def tok (g : Guard) (s : String) : P String := fun t =>
  match token g t s with
  | some (n, r) => .ok n r
  | none => .fail

/-- `"a" | "b" | ...` -/
def oneOf (g : Guard) : List String → P String
  | [] => failP
  | s :: l => alt (tok g s) (oneOf g l)

/-! ## regular expressions

The patterns of the grammars are matched with Python's `re` at the current position.  `Re.run` gives
the texts behind all matches, in the order in which the backtracking matcher tries them; the first
one is taken. -/

/-- The regular expressions that occur. -/
inductive Re where
  | empty
  | cls (p : Char → Bool)
  | seq (a b : Re)
  | alt (a b : Re)
  | star (p : Char → Bool)

/-- `[...]*`: greedy, longest first. -/
def starRests (p : Char → Bool) : Text → List Text
  | [] => [[]]
  | c :: t => if p c then starRests p t ++ [c :: t] else [c :: t]

/-- The rests of all matches in the order of the matcher. -/
def Re.run : Re → Text → List Text
  | .empty, t => [t]
  | .cls _, [] => []
  | .cls p, c :: t => if p c then [t] else []
  | .seq a b, t => (a.run t).flatMap b.run
  | .alt a b, t => a.run t ++ b.run t
  | .star p, t => starRests p t

/-- `x?`, greedy. -/
def Re.optional (a : Re) : Re := .alt a .empty

/-- One given character. -/
def Re.chr (c : Char) : Re := .cls (· == c)

/-- A range of characters. -/
def Re.rng (a b : Char) : Re := .cls (fun c => decide (a ≤ c) && decide (c ≤ b))

/-- `[...]+` -/
def Re.plus (p : Char → Bool) : Re := .seq (.cls p) (.star p)

/-- A pattern: the matched text is the value. -/
def pat (r : Re) : P (List Char) := fun t =>
  match r.run t with
  | [] => .fail
  | rest :: _ => .ok (t.take (t.length - rest.length)) rest

/-! ## the elementary rules (acl.bnf:1-11, ip.bnf) -/

/-- `NL = ["\r"] "\n"` -/
def nl : P Unit := fun t =>
  match t with
  | '\n' :: r => .ok () r
  | '\r' :: '\n' :: r => .ok () r
  | _ => .fail

/-- `SP = " "` -/
def sp : P Unit := fun t =>
  match t with
  | ' ' :: r => .ok () r
  | _ => .fail

/-- `[ \t]` -/
def isWs (c : Char) : Bool := c == ' ' || c == '\t'

/-- `WS = /[ \t]+/` -/
def ws : P Unit := do
  let _ ← pat (.plus isWs)
  pure ()

/-- `TOEOL = /[^\n]*/` and `remark = /[^\n]*/` -/
def toeol : P (List Char) := pat (.star (· != '\n'))

/-- `obj_name = /[A-Za-z0-9_\-\.+]*/` -/
def isNameChar (c : Char) : Bool := c.isAlphanum || c == '_' || c == '-' || c == '.' || c == '+'

/-- `obj_name` -/
def objName : P (List Char) := pat (.star isNameChar)

/-- `identifier = /[a-zA-Z_][A-Za-z0-9_\-\.]*/` -/
def identifier : P (List Char) :=
  pat (.seq (.cls (fun c => c.isAlpha || c == '_'))
    (.star (fun c => c.isAlphanum || c == '_' || c == '-' || c == '.')))

/-- `int = /[0-9]+/` -/
def intP : P (List Char) := pat (.plus Char.isDigit)

/-- `string = /[\S]+/` (ASCII white space) -/
def stringP : P (List Char) := pat (.plus (fun c => !isSpace c))

/-- `25[0-5]|(?:2[0-4]|1{0,1}[0-9]){0,1}[0-9]` -/
def octetRe : Re :=
  .alt (.seq (.chr '2') (.seq (.chr '5') (.rng '0' '5')))
    (.seq (.optional (.alt (.seq (.chr '2') (.rng '0' '4')) (.seq (.optional (.chr '1')) (.rng '0' '9'))))
      (.rng '0' '9'))

/-- The pattern of `ip4` (ip.bnf:1). -/
def ip4Re : Re :=
  let od := Re.seq octetRe (.chr '.')
  .seq od (.seq od (.seq od octetRe))

/-- `[a-fA-F0-9]` -/
def isHex (c : Char) : Bool :=
  c.isDigit || (decide ('a' ≤ c) && decide (c ≤ 'f')) || (decide ('A' ≤ c) && decide (c ≤ 'F'))

/-- The pattern of `ip6` (ip.bnf:3): `[a-fA-F0-9]*:[a-fA-F0-9\.\:]+` -/
def ip6Re : Re :=
  .seq (.star isHex) (.seq (.chr ':') (.plus (fun c => isHex c || c == '.' || c == ':')))

end Acltk.Peg
