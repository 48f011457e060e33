import Verif.Model.Py
import Verif.Model.Text
/-!
# Ports, port ranges, number checks
-/
namespace Acltk

/-- ASCII whitespace, removed by `int()` at both ends. -/
def isSpace (c : Char) : Bool :=
  c == ' ' || (decide (9 ≤ c.toNat) && decide (c.toNat ≤ 13)) || (decide (28 ≤ c.toNat) && decide (c.toNat ≤ 31))

/-- `s.strip()` for ASCII whitespace. -/
def strip (s : List Char) : List Char :=
  ((s.dropWhile isSpace).reverse.dropWhile isSpace).reverse

/-- A digit is expected next: digits with single underscores between them (Python's `int` literal
syntax).  Returns the digits. -/
def underscoreDigits : List Char → Option (List Char)
  | [] => none
  | [c] => if c.isDigit then some [c] else none
  | c :: d :: t =>
    if c.isDigit then
      if d = '_' then (underscoreDigits t).map (c :: ·)
      else (underscoreDigits (d :: t)).map (c :: ·)
    else none

/-- The optional sign in front of an integer text. -/
def splitSign : List Char → Bool × List Char
  | '-' :: r => (true, r)
  | '+' :: r => (false, r)
  | r => (false, r)

/-- `int(s)` for a `str`; `none` is ValueError.  Only ASCII digits and whitespace are modelled.
CPython refuses more than 4300 digits. -/
def pyInt (s : List Char) : Option Int :=
  match underscoreDigits (splitSign (strip s)).2 with
  | none => none
  | some ds =>
    if ds.length ≤ 4300 then
      some (if (splitSign (strip s)).1 then - (Nat.ofDigitChars 10 ds 0 : Int) else (Nat.ofDigitChars 10 ds 0 : Int))
    else none

/-- `Port`, aclObjects.py:872-899: operator (absent for some constructors) and the text of the
number.  The number is `None` for `port-object eq …` (see `portGroupObject`). -/
structure Port where
  op : Option String
  num : Option String
  deriving DecidableEq

/-- `Port` (868-899) and `PortRange` (902-914) as members of a port group. -/
inductive PortLeaf where
  | port (p : Port)
  | range (start stop : String)
  deriving DecidableEq

/-- `o.op or ""`: `None` and `""` both give `""`. -/
def Port.opText (p : Port) : String := match p.op with | none => "" | some s => s

/-- `Port.__eq__`, aclObjects.py:880-885; the other side may be `None`, which stands for
`("", -1)` and is never equal to a text or `None`. -/
def Port.eq (p : Port) : Option Port → Bool
  | none => false
  | some q => decide (p.opText = q.opText) && decide (p.num = q.num)

/-- `Port.__ne__`, aclObjects.py:887-888. -/
def Port.ne (p : Port) (q : Option Port) : Bool := !(p.eq q)

/-- `Port.__lt__`, aclObjects.py:890-896: tuple comparison.  The operators decide unless they are
equal; equal numbers are not compared further; `None < "80"` and `"80" < -1` raise TypeError. -/
def Port.lt (p : Port) : Option Port → Py Bool
  | none => if p.opText = "" then .error .type else .ok (decide (p.opText < ""))
  | some q =>
    if p.opText = q.opText then
      if p.num = q.num then .ok false
      else match p.num, q.num with
        | some a, some b => .ok (decide (a < b))
        | _, _ => .error .type
    else .ok (decide (p.opText < q.opText))

/-- `__gt__` added by `functools.total_ordering` (868): `not self < other and self != other`. -/
def Port.gt (p : Port) (q : Option Port) : Py Bool :=
  match p.lt q with
  | .error e => .error e
  | .ok r => .ok (!r && p.ne q)

/-- `__le__` added by `functools.total_ordering`: `self < other or self == other`. -/
def Port.le (p : Port) (q : Option Port) : Py Bool :=
  match p.lt q with
  | .error e => .error e
  | .ok r => .ok (r || p.eq q)

/-- `__ge__` added by `functools.total_ordering`: `not self < other`. -/
def Port.ge (p : Port) (q : Option Port) : Py Bool :=
  match p.lt q with
  | .error e => .error e
  | .ok r => .ok (!r)

/-- A port object on the heap: identity and value. -/
structure PortObj where
  id : Nat
  val : Port

/-- `Port.__hash__`, aclObjects.py:898-899: `id(self)`. -/
def PortObj.hash (p : PortObj) : Nat := p.id

/-- Adding an element to a Python `set`/`dict`: it is found present when the hashes are equal and
the objects are identical or `==`. -/
def portSetAdd (s : List PortObj) (p : PortObj) : List PortObj :=
  if s.any (fun q => q.hash == p.hash && (q.id == p.id || q.val.eq (some p.val))) then s else s ++ [p]

/-- `set(l)` -/
def portSetOf (l : List PortObj) : List PortObj := l.foldl portSetAdd []

/-- `PortRange.__init__`, aclObjects.py:903-911: if both texts are integers the TEXTS must be
increasing; otherwise anything is accepted. -/
def mkPortRange (start stop : String) : Py PortLeaf :=
  match pyInt start.toList with
  | none => .ok (.range start stop)
  | some _ =>
    match pyInt stop.toList with
    | none => .ok (.range start stop)
    | some _ => if start < stop then .ok (.range start stop) else .error .assertion

/-! ## the parse tree of a port-group member -/

/-- The named nodes of a `port_group_object` (`None` when not named). -/
structure PortObjectAst where
  type : String
  op : Option String := none
  port : Option String := none
  begin_ : Option String := none
  end_ : Option String := none

/-- The parser action for `port-object eq <port>`, acl.bnf:`port_group_object`, fwsm.py:1659-1668,
ios.py:1649-1658: the sub-node `port` is parsed but NOT named, only `type` and `op` are. -/
def portObjectEqAst (_port : String) : PortObjectAst := { type := "port-object", op := some "eq" }

/-- … and for `port-object range <begin> <end>`, fwsm.py:1669-1682, ios.py:1659-1672. -/
def portObjectRangeAst (b e : String) : PortObjectAst :=
  { type := "port-object", op := some "range", begin_ := some b, end_ := some e }

/-- `port_group_object`, aclSemantics.py:284-292, for the two `port-object` forms.  (`ast.x` is `None`
for a name that was not set.) -/
def portGroupObject (ast : PortObjectAst) : Py PortLeaf :=
  if ast.op = some "range" then
    match ast.begin_, ast.end_ with
    | some b, some e => mkPortRange b e
    | _, _ => .error .type
  else .ok (.port ⟨ast.op, ast.port⟩)

/-- `service_object_op` and `acl_port`, aclSemantics.py:278-282, 335-342, on `op port`; here the
grammar does name the port. -/
def aclPort (op port : String) : PortLeaf := .port ⟨some op, some port⟩

/-! ## number checks -/

/-- The body shared by `protocol_int` (217-219), `port_int` (221-223), `icmp_type_int` (225-227),
`icmp_code_int` (229-231): `assert 0 <= int(ast) <= max`, then the text is returned.  The argument
matches `[0-9]+`. -/
def checkedInt (max : Nat) (s : List Char) : Py (List Char) :=
  match pyInt s with
  | none => .error .value
  | some n => if 0 ≤ n ∧ n ≤ (max : Int) then .ok s else .error .assertion

/-- `protocol_int`, aclSemantics.py:218-220. -/
def protocolInt (s : List Char) : Py (List Char) := checkedInt 255 s
/-- `port_int`, aclSemantics.py:222-224. -/
def portInt (s : List Char) : Py (List Char) := checkedInt (2 ^ 16 - 1) s
/-- `icmp_type_int`, aclSemantics.py:226-228. -/
def icmpTypeInt (s : List Char) : Py (List Char) := checkedInt (2 ^ 8 - 1) s
/-- `icmp_code_int`, aclSemantics.py:230-232. -/
def icmpCodeInt (s : List Char) : Py (List Char) := checkedInt (2 ^ 8 - 1) s

end Acltk
