/-!
# The rule lines of an IOS configuration

Independent of the parser: which lines of a text are rules of access lists, of which list, in order.
-/
namespace Acltk.IosLines

/-- The lines of a text; `pre` has been read of the first one. -/
def linesFrom (pre : List Char) : List Char → List (List Char)
  | [] => [pre]
  | c :: t => if c = '\n' then pre :: linesFrom [] t else linesFrom (pre ++ [c]) t

/-- The lines of a text, without the line feeds. -/
def lines (t : List Char) : List (List Char) := linesFrom [] t

/-- A blank or a tabulator. -/
def isBlank (c : Char) : Bool := c == ' ' || c == '\t'

/-- The words of a line; `w` has been read of the first one. -/
def wordsFrom (w : List Char) : List Char → List String
  | [] => if w = [] then [] else [String.ofList w]
  | c :: t =>
    if isBlank c then (if w = [] then wordsFrom [] t else String.ofList w :: wordsFrom [] t)
    else wordsFrom (w ++ [c]) t

/-- The words of a line. -/
def words (l : List Char) : List String := wordsFrom [] l

/-- An action. -/
def isMode (w : String) : Bool := w == "permit" || w == "deny"

/-- The name at the end of a line, without the carriage return. -/
def name (w : String) : String := String.ofList (w.toList.filter (· != '\r'))

/-- The action of an entry of a list, by its words: `permit ...`, `10 permit ...` or `sequence 10 permit ...`. -/
def action : List String → Option String
  | a :: b :: c :: _ =>
    if isMode a then some a
    else if a.toList.all Char.isDigit && isMode b then some b
    else if a == "sequence" && isMode c then some c
    else none
  | [a, b] => if isMode a then some a else if a.toList.all Char.isDigit && isMode b then some b else none
  | [a] => if isMode a then some a else none
  | [] => none

/-- The list that the lines behind this one belong to: `ip access-list standard|extended NAME`, `ipv6 access-list NAME`. -/
def opened : List String → Option String
  | "ip" :: "access-list" :: k :: l =>
    if k == "standard" || k == "extended" then
      match l with
      | [] => some ""
      | [n] => some (name n)
      | _ => none
    else none
  | "ipv6" :: "access-list" :: l =>
    match l with
    | [] => some ""
    | [n] => some (name n)
    | _ => none
  | _ => none

/-- A rule of a numbered list: `access-list N permit|deny ...`. -/
def numbered : List String → List (String × String)
  | "access-list" :: n :: m :: _ => if isMode m then [(n, m)] else []
  | _ => []

/-- One line, when the lines belong to the list `cur`: the list the next lines belong to, and the rule that the line is. -/
def step (cur : Option String) (l : List Char) : Option String × List (String × String) :=
  match l with
  | ' ' :: r =>
    (cur, match cur, action (words r) with
      | some n, some m => [(n, m)]
      | _, _ => [])
  | _ => (opened (words l), numbered (words l))

/-- What stands behind the word `k` and blanks. -/
def after (k : String) (l : List Char) : Option (List Char) :=
  if k.toList.isPrefixOf l then
    match l.drop k.toList.length with
    | c :: r => if isBlank c then some (r.dropWhile isBlank) else none
    | [] => none
  else none

/-- The text `d` occurs in `l`. -/
def occurs (d : List Char) : List Char → Bool
  | [] => d.isEmpty
  | c :: t => d.isPrefixOf (c :: t) || occurs d t

/-- The delimiter, `^C` or one character, that the text begins with, unless it occurs again. -/
def unclosed : List Char → Option (List Char)
  | '^' :: 'C' :: m => if occurs ['^', 'C'] m then none else some ['^', 'C']
  | c :: m => if occurs [c] m then none else some [c]
  | [] => none

/-- The delimiter of a banner that begins in this line, `banner motd ^C...` or `banner motd #...`, and does not end in it. -/
def opens (l : List Char) : Option (List Char) :=
  match after "banner" l with
  | none => none
  | some r =>
    match after "motd" r with
    | none => none
    | some t => unclosed t

/-- The rules (list and action) in these lines, in order.  `banner` is the delimiter of the banner that the lines are in; it
ends with the line in which the delimiter occurs. -/
def rulesIn (banner : Option (List Char)) (cur : Option String) : List (List Char) → List (String × String)
  | [] => []
  | l :: ls =>
    match banner with
    | some d => if occurs d l then rulesIn none none ls else rulesIn (some d) none ls
    | none =>
      match opens l with
      | some d => rulesIn (some d) none ls
      | none => (step cur l).2 ++ rulesIn none (step cur l).1 ls

/-- The rules (list and action) in these lines, in order. -/
def rules (cur : Option String) (ls : List (List Char)) : List (String × String) := rulesIn none cur ls

/-- A line that this reading of a configuration does not understand: a DHCP pool, the beginning of an access list or a banner behind
blanks, a banner command with a character outside ASCII, or `^^C`. -/
def Odd (l : List Char) : Prop :=
  (∃ b r : List Char, l = b ++ r ∧ (∀ c ∈ b, c = ' ') ∧
    (b ≠ [] ∧ "banner".toList <+: r ∨
      (∃ w, w ≠ [] ∧ (∀ c ∈ w, isBlank c = true) ∧ "ip".toList ++ w ++ "dhcp pool".toList <+: r) ∨
      b ≠ [] ∧ ("access-list".toList <+: r ∨
        ∃ k w, (k = "ip" ∨ k = "ipv6") ∧ w ≠ [] ∧ (∀ c ∈ w, isBlank c = true) ∧ k.toList ++ w ++ "access-list".toList <+: r))) ∨
  ("banner".toList <+: l ∧ ∃ c ∈ l, 128 ≤ c.toNat) ∨
  ∃ a b, l = a ++ ("^^C".toList ++ b)

end Acltk.IosLines
