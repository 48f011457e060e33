import Verif.Model.Py
/-!
# How the parser recognises references to names

`aclParser.__acl_internal_ids` tries the known names as tokens in reverse lexicographic order; the
first one that matches is taken (a PEG choice never reconsiders).  The grammar rules then demand a
terminator behind it: `&(id (WS|NL)) name:id` or `&(id "/") name:id` (acl.bnf:68-152).
-/
namespace Acltk.Lookup
open Acltk

/-- The texts are lists of characters; names are strings. -/
abbrev Text := List Char

/-- TatSu's `nameguard` (the parsers are created with `nameguard=True`, iosObjects.py:57,
fwsmObjects.py:29): a token may be refused because of the character that follows it.  TatSu is not
part of the repository, so the guard is a parameter `guard token rest`. -/
abbrev Guard := String → Text → Bool

/-- `self._token(i)` at a position: the text behind the token. -/
def token (guard : Guard) (text : Text) (i : String) : Option (String × Text) :=
  if i.toList.isPrefixOf text then
    let rest := text.drop i.toList.length
    if guard i rest then some (i, rest) else none
  else none

/-- `sorted(l, reverse=True)` (aclSemantics.py:542). -/
def descending (names : List String) : List String :=
  names.mergeSort (fun a b => decide (b ≤ a))

/-- `__acl_internal_ids(s)` (aclSemantics.py:535-547).  With no names, or when no name matches, the
rule fails. -/
def internalIds (guard : Guard) (names : List String) (text : Text) : Option (String × Text) :=
  (descending names).findSome? (token guard text)

/-- `WS|NL` matches here: blanks or tabs, or a line end `["\r"] "\n"` (acl.bnf:1-4). -/
def wsOrNl : Text → Bool
  | ' ' :: _ => true
  | '\t' :: _ => true
  | '\n' :: _ => true
  | '\r' :: '\n' :: _ => true
  | _ => false

/-- `"/"` matches here (acl.bnf:130). -/
def slash : Text → Bool
  | '/' :: _ => true
  | _ => false

/-- `&(id term) name:id` (acl.bnf:63-156). -/
def reference (guard : Guard) (term : Text → Bool) (names : List String) (text : Text) :
    Option (String × Text) :=
  match internalIds guard names text with
  | none => none
  | some (n, rest) => if term rest then some (n, rest) else none

/-- `"any"|acl_interface_id` followed by a closing character, without lookahead (acl.bnf:282): the
keyword is tried first, and the choice is final.  The result is the written word and the text behind
the closing character. -/
def natInterface (guard : Guard) (close : Char) (names : List String) (text : Text) :
    Option (String × Text) :=
  let word := match token guard text "any" with
    | some r => some r
    | none => internalIds guard names text
  match word with
  | some (n, c :: rest) => if c = close then some (n, rest) else none
  | _ => none

end Acltk.Lookup
