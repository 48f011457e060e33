/-!
# `fnmatch.fnmatchcase` (CPython 3.11 `fnmatch.py`), used by aclObjects.py:1120

`translate` (fnmatch.py:74-185) turns the pattern into a regular expression; the model keeps the
expression as a list of pieces and gives the matcher `re.compile(...).match` on these pieces
(backtracking for `.*`, no backtracking into atomic groups).
-/
namespace Acltk.Fnmatch

/-- An element of the text of a regex character set `[...]`: an (escaped) literal character or
the unescaped hyphen that `translate` puts between two chunks (fnmatch.py:129). -/
inductive SetChar where
  | lit (c : Char)
  | dash
  deriving DecidableEq, Repr

/-- The literal a set element stands for when it is not a range operator. -/
def SetChar.char : SetChar → Char
  | .lit c => c
  | .dash => '-'

/-- How the `re` module reads the text of a set: `x-y` is a range, everything else a literal
(`re/_parser.py`, `_parse`, the `[` branch). -/
def setItems : List SetChar → List (Char × Char)
  | x :: .dash :: y :: r => (x.char, y.char) :: setItems r
  | x :: r => (x.char, x.char) :: setItems r
  | [] => []

/-- What a one-character piece of the regex accepts. -/
inductive Cls where
  | lit (c : Char)                          -- re.escape(c), or '\\[' for an unclosed bracket
  | dot                                     -- '.', under (?s:...)
  | never                                   -- '(?!)'
  | set (neg : Bool) (body : List SetChar)  -- '[...]' or '[^...]'
  deriving DecidableEq, Repr

/-- Does the piece accept the character? -/
def Cls.has : Cls → Char → Bool
  | .lit c, x => c == x
  | .dot, _ => true
  | .never, _ => false
  | .set neg body, x => neg != (setItems body).any (fun p => decide (p.1 ≤ x) && decide (x ≤ p.2))

/-- The `res` list of the first phase of `translate`: STAR or a one-character piece. -/
inductive Tok where
  | star
  | one (c : Cls)
  deriving DecidableEq, Repr

/-- Index of the first `'-'` at or after position `off` (`pat.find('-', k, j)`), as a split:
the text before it and the text after it. -/
def findDash (off : Nat) (l : List Char) : Option (List Char × List Char) :=
  let post := l.drop off
  let u := post.takeWhile (· ≠ '-')
  match post.dropWhile (· ≠ '-') with
  | [] => none
  | _ :: v => some (l.take off ++ u, v)

/-- The chunk loop, fnmatch.py:108-121. `off` is the distance of `k` from `i`: 1 or 2 at the
start (fnmatch.py:109), 2 afterwards (`i = k+1; k = k+3`).  The final `chunks[-1] += '-'` for an
empty last chunk is applied to the chunk before it. -/
def chunkLoop (off : Nat) (l : List Char) : List (List Char) :=
  match _h : findDash off l with
  | none => [l]
  | some (u, v) =>
    match v with
    | [] => [u ++ ['-']]
    | y :: t => u :: chunkLoop 2 (y :: t)
termination_by l.length
decreasing_by
  rename _ => h
  unfold findDash at h
  simp only at h
  split at h
  · simp at h
  · rename_i w v' hd
    simp only [Option.some.injEq, Prod.mk.injEq] at h
    obtain ⟨_, rfl⟩ := h
    have h1 := (List.dropWhile_suffix (fun x => decide (x ≠ '-')) (l := List.drop off l)).length_le
    rw [hd] at h1
    simp only [List.length_cons, List.length_drop] at h1 ⊢
    omega

/-- Removal of empty ranges from the right, fnmatch.py:123-126. (All chunks are non-empty when
the comparison is made.) -/
def removeEmpty : List (List Char) → List (List Char)
  | [] => []
  | a :: rest =>
    match removeEmpty rest with
    | [] => [a]
    | b :: t =>
      match a.getLast?, b.head? with
      | some x, some y => if x > y then (a.dropLast ++ b.tail) :: t else a :: b :: t
      | _, _ => a :: b :: t

/-- `'-'.join(escaped chunks)`, fnmatch.py:129-130: hyphens inside a chunk are escaped, the
joining ones are not. -/
def joinChunks : List (List Char) → List SetChar
  | [] => []
  | [a] => a.map .lit
  | a :: rest => a.map .lit ++ .dash :: joinChunks rest

/-- The text of a bracket expression to a regex piece, fnmatch.py:104-145. -/
def bracket (stuff : List Char) : Cls :=
  let s : List SetChar :=
    if '-' ∉ stuff then stuff.map .lit
    else joinChunks (removeEmpty (chunkLoop (if stuff.head? = some '!' then 2 else 1) stuff))
  match s with
  | [] => .never
  | [.lit '!'] => .dot
  | .lit '!' :: r => .set true r
  | s => .set false s

/-- Skip one given character at the start if it is there: `if j < n and pat[j] == c: j = j+1`
(fnmatch.py:95-98). The skipped text and the rest. -/
def skipChar (c : Char) (l : List Char) : List Char × List Char :=
  if l.head? = some c then ([c], l.tail) else ([], l)

/-- Find the end of a bracket expression, fnmatch.py:94-104: the text after `'['` is split into
the body and the text after the closing bracket. -/
def findClose (l : List Char) : Option (List Char × List Char) :=
  let a := skipChar '!' l
  let b := skipChar ']' a.2
  match b.2.dropWhile (· ≠ ']') with
  | [] => none
  | _ :: rest => some (a.1 ++ (b.1 ++ b.2.takeWhile (· ≠ ']')), rest)

theorem skipChar_length (c : Char) (l : List Char) : (skipChar c l).2.length ≤ l.length := by
  unfold skipChar; split <;> simp

theorem findClose_length {l b r : List Char} (h : findClose l = some (b, r)) : r.length < l.length := by
  have key : ∀ l2 : List Char, ∀ x, l2.dropWhile (fun c => decide (c ≠ ']')) = x :: r → r.length < l2.length := by
    intro l2 x hd
    have h1 := (List.dropWhile_suffix (fun c => decide (c ≠ ']')) (l := l2)).length_le
    rw [hd] at h1; simp at h1; omega
  unfold findClose at h
  simp only at h
  split at h
  · simp at h
  · rename_i w rest hd
    simp only [Option.some.injEq, Prod.mk.injEq] at h
    obtain ⟨_, rfl⟩ := h
    have := key _ _ hd
    have h1 := skipChar_length ']' (skipChar '!' l).2
    have h2 := skipChar_length '!' l
    omega

/-- First phase of `translate`, fnmatch.py:80-148; `acc` is `res` in reverse. -/
def tokLoop (acc : List Tok) (pat : List Char) : List Tok :=
  match pat with
  | [] => acc.reverse
  | c :: rest =>
    if c = '*' then
      -- compress consecutive `*` into one
      if acc.head? = some .star then tokLoop acc rest else tokLoop (.star :: acc) rest
    else if c = '?' then tokLoop (.one .dot :: acc) rest
    else if c = '[' then
      match _h : findClose rest with
      | none => tokLoop (.one (.lit '[') :: acc) rest
      | some (b, r) => tokLoop (.one (bracket b) :: acc) r
    else tokLoop (.one (.lit c) :: acc) rest
termination_by pat.length
decreasing_by
  all_goals simp_all
  rename _ => h
  have := findClose_length h
  omega

/-- A piece of the final regex, fnmatch.py:150-185. -/
inductive Piece where
  | one (c : Cls)
  | dotStar
  | atomic (fixed : List Cls)   -- (?>.*?fixed)
  deriving DecidableEq, Repr

/-- The fixed pieces up to the next STAR. -/
def fixedPart : List Tok → List Cls × List Tok
  | .one c :: ts => let (f, r) := fixedPart ts; (c :: f, r)
  | ts => ([], ts)

theorem fixedPart_length (ts : List Tok) : (fixedPart ts).2.length ≤ ts.length := by
  induction ts with
  | nil => simp [fixedPart]
  | cons t ts ih => cases t <;> simp [fixedPart]; omega

/-- The loop `while i < n` over `STAR fixed STAR fixed ...`, fnmatch.py:166-182; the argument is
the token list after a STAR. -/
def buildStar (ts : List Tok) : List Piece :=
  match ts with
  | [] => [.dotStar]
  | t :: ts' =>
    let f := (fixedPart (t :: ts')).1
    match _h : (fixedPart (t :: ts')).2 with
    | [] => .dotStar :: f.map .one
    | _ :: rest' => .atomic f :: buildStar rest'
termination_by ts.length
decreasing_by
  rename _ => h
  have := fixedPart_length (t :: ts')
  rw [h] at this
  simp at this ⊢
  omega

/-- Second phase of `translate`: fixed pieces at the start, then the STARs. -/
def build (ts : List Tok) : List Piece :=
  let (f, rest) := fixedPart ts
  f.map .one ++ (match rest with
    | [] => []
    | _ :: rest' => buildStar rest')

/-- Match a sequence of one-character pieces at the start of the text; the rest of the text. -/
def matchFixed : List Cls → List Char → Option (List Char)
  | [], s => some s
  | c :: cs, x :: s => if c.has x then matchFixed cs s else none
  | _ :: _, [] => none

/-- `(?>.*?fixed)`: the leftmost match of `fixed`, committed. -/
def atomicFind (fixed : List Cls) : List Char → Option (List Char)
  | [] => matchFixed fixed []
  | x :: s =>
    match matchFixed fixed (x :: s) with
    | some r => some r
    | none => atomicFind fixed s

/-- All suffixes of a text: what may be left after `.*`. -/
def suffixes : List Char → List (List Char)
  | [] => [[]]
  | x :: s => (x :: s) :: suffixes s

/-- `re.match` of the pieces followed by `\Z`. -/
def runPieces : List Piece → List Char → Bool
  | [], s => s.isEmpty
  | .one c :: ps, x :: s => c.has x && runPieces ps s
  | .one _ :: _, [] => false
  | .dotStar :: ps, s => (suffixes s).any (fun t => runPieces ps t)
  | .atomic f :: ps, s =>
    match atomicFind f s with
    | some r => runPieces ps r
    | none => false

/-- `fnmatch.fnmatchcase(name, pat)`, fnmatch.py:64-71. -/
def fnmatchcase (name pat : String) : Bool :=
  runPieces (build (tokLoop [] pat.toList)) name.toList

end Acltk.Fnmatch
