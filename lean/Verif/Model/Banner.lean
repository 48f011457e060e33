import Verif.Model.Mask
/-!
# IOS banner messages

`"motd" WS delim_start delim_msg delim_stop NL` (ios.bnf:61-77) with the overridden rules
`_delim_msg_` and `_delim_stop_` (iosSemantics.py:245-258).  The regular expressions are alternatives
of single characters under a star; they never backtrack, so the match is a left-to-right scan.
-/
namespace Acltk.Banner
open Acltk

/-- `([^^]|\\^[^C])*` (iosSemantics.py:248-249): the matched text and the rest. -/
def scanCaret : List Char → List Char × List Char
  | [] => ([], [])
  | '^' :: [] => ([], ['^'])
  | '^' :: d :: t =>
    if d = 'C' then ([], '^' :: d :: t)
    else let r := scanCaret t; ('^' :: d :: r.1, r.2)
  | c :: t => let r := scanCaret t; (c :: r.1, r.2)

/-- `token` at the start of a text. -/
def stripPrefix (p t : List Char) : Option (List Char) :=
  if p.isPrefixOf t then some (t.drop p.length) else none

/-- `int.from_bytes(bytes, byteorder="little")` -/
def fromBytesLittle : List Nat → Nat
  | [] => 0
  | b :: t => b + 256 * fromBytesLittle t

/-- `self.delim.encode("utf-8")` of one character. -/
def utf8 (c : Char) : List Nat := (String.utf8EncodeChar c).map UInt8.toNat

/-- `"{:02x}".format(n)` -/
def hex02 (n : Nat) : List Char :=
  let h := hexText n
  if h.length < 2 then '0' :: h else h

/-- The literal characters the text `\\x{:02x}` stands for in a regular expression
(iosSemantics.py:251, 258): `\\x` takes two hexadecimal digits, any further digits are ordinary
characters. -/
def regexLiterals (n : Nat) : List Char :=
  match hex02 n with
  | a :: b :: rest => Char.ofNat (hexVal a * 16 + hexVal b) :: rest
  | l => l

/-- `[^...]*`: the longest prefix without the given characters, and the rest. -/
def scanUntil (stop : List Char) : List Char → List Char × List Char
  | [] => ([], [])
  | c :: t => if c ∈ stop then ([], c :: t) else let r := scanUntil stop t; (c :: r.1, r.2)

/-- The two kinds of delimiter (`delim_start`, ios.bnf:66-69). -/
inductive Delim where
  | caretC
  | char (c : Char)
  deriving DecidableEq, Repr

/-- The text of a delimiter. -/
def Delim.text : Delim → List Char
  | .caretC => ['^', 'C']
  | .char c => [c]

/-- `delim_msg delim_stop` on the text behind the opening delimiter: the message and the rest, or no
parse. -/
def banner : Delim → List Char → Option (List Char × List Char)
  | .caretC, t =>
    let r := scanCaret t
    (stripPrefix ['^', 'C'] r.2).map (fun rest => (r.1, rest))
  | .char c, t =>
    let lits := regexLiterals (fromBytesLittle (utf8 c))
    let r := scanUntil lits t
    (stripPrefix lits r.2).map (fun rest => (r.1, rest))

end Acltk.Banner
