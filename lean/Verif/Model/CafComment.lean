/-!
# Comments in CAF texts

caf.bnf:17-19 / caf.py:102-105: the token `/*`, the regular expression
`(?:[^*]|(?:\*[^/]))*`, the token `*/`.  The two alternatives of the expression start with
different characters and nothing follows the star, so the regular expression consumes
deterministically and never backtracks; TatSu does not re-enter it when the token fails.
-/
namespace Acltk.Caf

/-- What is left after the longest run of the regular expression. -/
def scanBody : List Char → List Char
  | [] => []
  | '*' :: '/' :: r => '*' :: '/' :: r
  | '*' :: _ :: r => scanBody r
  | ['*'] => ['*']
  | _ :: r => scanBody r

/-- `_comment_`, caf.py:102-105: the text after the comment, or failure. -/
def comment : List Char → Option (List Char)
  | '/' :: '*' :: r =>
    match scanBody r with
    | '*' :: '/' :: r' => some r'
    | _ => none
  | _ => none

end Acltk.Caf
