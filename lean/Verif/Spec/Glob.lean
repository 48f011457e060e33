/-!
# Specification of glob patterns

Independent of `fnmatch`: which names a pattern matches, directly on the characters of the
pattern.
-/
namespace Acltk.Glob

/-- Reading the body of a bracket from left to right: `x-y` is a range, any other character
stands for itself. -/
def classItems : List Char → List (Char × Char)
  | x :: '-' :: y :: r => (x, y) :: classItems r
  | x :: r => (x, x) :: classItems r
  | [] => []

/-- A character is in the class of a body iff it lies in one of the ranges. -/
def InClass (body : List Char) (c : Char) : Prop := ∃ p ∈ classItems body, p.1 ≤ c ∧ c ≤ p.2

/-- `BracketText neg body t`: the text `t` between `[` and `]` is `body`, negated by a leading
`!` iff `neg`.  A `]` may only occur as the first character of the body. -/
inductive BracketText : Bool → List Char → List Char → Prop
  | pos {body} : body ≠ [] → ']' ∉ body.tail → body.head? ≠ some '!' → BracketText false body body
  | neg {body} : body ≠ [] → ']' ∉ body.tail → BracketText true body ('!' :: body)

/-- `Matches p s`: the name `s` can be split according to the pattern `p`. -/
inductive Matches : List Char → List Char → Prop
  | nil : Matches [] []
  | star {p u v} : Matches p v → Matches ('*' :: p) (u ++ v)
  | any {p c v} : Matches p v → Matches ('?' :: p) (c :: v)
  | set {neg body t p c v} : BracketText neg body t → (InClass body c ↔ neg = false) →
      Matches p v → Matches ('[' :: (t ++ ']' :: p)) (c :: v)
  | unclosed {p v} : (∀ neg body t p', p = t ++ ']' :: p' → ¬ BracketText neg body t) →
      Matches p v → Matches ('[' :: p) ('[' :: v)
  | lit {c p v} : c ≠ '*' → c ≠ '?' → c ≠ '[' → Matches p v → Matches (c :: p) (c :: v)

/-- The one corner where `fnmatch` departs from glob semantics: a bracket that does not start
with `!` but whose first non-reversed item does, e.g. `[z-a!x]`.  `Sane p` says no bracket of
`p` is of this kind. -/
def Sane (p : List Char) : Prop :=
  ∀ pre t post, p = pre ++ '[' :: (t ++ ']' :: post) → BracketText false t t →
    ∀ hi, (classItems t).find? (fun q => decide (q.1 ≤ q.2)) ≠ some ('!', hi)

end Acltk.Glob
