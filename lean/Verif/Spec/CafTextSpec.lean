import Verif.Spec.CafSpec
import Verif.Spec.AclTextSpec
/-!
# Specification: CAF filters as sequences of words

Which words a filter is written with, and how words are put into a text.  The grammar is not used.
-/
namespace Acltk.CafText
open Acltk Acltk.Caf

/-- The words of the filter language. -/
inductive Word where
  | key (s : String)
  | network (w : List Char)
  | id (w : List Char)
  | comment (body : List Char)

/-- The text of a word. -/
def Word.text : Word → List Char
  | .key s => s.toList
  | .network w => w
  | .id w => w
  | .comment b => '/' :: '*' :: (b ++ ['*', '/'])

/-- A comment: its first `*/` ends it (and it does not end in a further star, see C16). -/
def CommentBody (b : List Char) : Prop :=
  (∀ pre post, b ++ ['*', '/'] = pre ++ '*' :: '/' :: post → post = []) ∧ ∀ c ∈ b.getLast?, c ≠ '*'

/-- What may follow a word: behind parentheses and comments anything; behind the other words white space,
the end or a parenthesis, and a comment, except behind an id, which would take its slash. -/
def Apart : Word → List Char → Prop
  | .comment _, _ => True
  | .key "(", _ => True
  | .key ")", _ => True
  | w, t => (∀ c ∈ t.head?, isSpace c = true ∨ c = '(' ∨ c = ')' ∨ (c = '/' ∧ (∃ u, t = '/' :: '*' :: u) ∧ ∀ x, w ≠ .id x))

/-- A word is not empty and does not begin with white space. -/
def Proper (w : Word) : Prop := ∃ c u, w.text = c :: u ∧ isSpace c = false

/-- The text consists of these words, with white space in front of each and at the end. -/
inductive Written : List Word → List Char → Prop
  | nil (b : List Char) : (∀ c ∈ b, isSpace c = true) → Written [] b
  | cons (b : List Char) (w : Word) (ws : List Word) (t : List Char) : (∀ c ∈ b, isSpace c = true) → Written ws t →
      Proper w → Apart w t → Written (w :: ws) (b ++ (w.text ++ t))

/-- The text of an address. -/
inductive AddressText : List Char → Addr → Prop
  | v4 (n : Nat) : n < 2 ^ 32 → AddressText (Dotted n) ⟨.v4, n⟩
  | v6 (w : List Char) (n : Nat) : V6Text w n → AddressText w ⟨.v6, n⟩

/-- The network words: keywords, addresses, and networks given by an address and a number of bits
(with white space around the slash or without). -/
inductive NetworkWord : List Char → Host → Prop
  | any : NetworkWord "any".toList .any
  | any4 : NetworkWord "any4".toList .any4
  | any6 : NetworkWord "any6".toList .any6
  | ANY : NetworkWord "ANY".toList .cafAny
  | ANY4 : NetworkWord "ANY4".toList .cafAny4
  | ANY6 : NetworkWord "ANY6".toList .cafAny6
  | host (w : List Char) (a : Addr) : AddressText w a → NetworkWord w (.host a)
  | net (w b b' m : List Char) (a : Addr) (p : Nat) (n : Net) : AddressText w a → (∀ c ∈ b, isSpace c = true) →
      (∀ c ∈ b', isSpace c = true) → m ≠ [] → (∀ c ∈ m, c.isDigit = true) →
      MaskText a.ver m p → AclText.NetworkOf a p n → NetworkWord (w ++ (b ++ '/' :: (b' ++ m))) (.net n)

/-- The word of an operator. -/
def opWord : Op → String
  | .union => "union"
  | .intersect => "intersect"
  | .except => "except"

/-- The word of a direction. -/
def dirWord : Dir → String
  | .src => "src"
  | .dst => "dst"

/-- The networks of an `ip` clause. -/
inductive NetworkWords : List Host → List Word → Prop
  | one (h : Host) (w : List Char) : NetworkWord w h → NetworkWords [h] [.network w]
  | cons (h : Host) (w : List Char) (hs : List Host) (ws : List Word) : NetworkWord w h → NetworkWords hs ws →
      NetworkWords (h :: hs) (.network w :: ws)

/-- The characters of an id or id pattern. -/
def IdText (w : List Char) : Prop := w ≠ [] ∧ ∀ c ∈ w, c.isAlphanum = true ∨ c ∈ "_-.?*[]!/".toList

/-- An optional id. -/
inductive IdWords : Option String → List Word → Prop
  | none : IdWords none []
  | some (w : List Char) : IdText w → IdWords (some (String.ofList w)) [.key "id", .id w]

/-- Comments with such bodies. -/
inductive CommentsOf (C : List Char → Prop) : List Word → Prop
  | nil : CommentsOf C []
  | cons (b : List Char) (ws : List Word) : C b → CommentsOf C ws → CommentsOf C (.comment b :: ws)

mutual
/-- Operands separated by operators. -/
inductive ChainOf (C : List Char → Prop) : Chain → List Word → Prop
  | one (s : SetSyn) (ws : List Word) : SetOf C s ws → ChainOf C (.one s) ws
  | more (s : SetSyn) (o : Op) (c : Chain) (ws vs : List Word) : SetOf C s ws → ChainOf C c vs →
      ChainOf C (.more s o c) (ws ++ .key (opWord o) :: vs)
/-- An optional id, then clauses, parentheses and comments; comments may also stand in front. -/
inductive SetOf (C : List Char → Prop) : SetSyn → List Word → Prop
  | mk (id : Option String) (objs : Items) (cs is ws : List Word) : CommentsOf C cs → IdWords id is → ItemsOf C objs ws →
      SetOf C (.mk id objs) (cs ++ (is ++ ws))
/-- The clauses, parentheses and comments of a set. -/
inductive ItemsOf (C : List Char → Prop) : Items → List Word → Prop
  | nil : ItemsOf C .nil []
  | comment (b : List Char) (r : Items) (ws : List Word) : C b → ItemsOf C r ws →
      ItemsOf C (.comment r) (.comment b :: ws)
  | ip (d : Dir) (nets : List Host) (r : Items) (ns ws : List Word) : NetworkWords nets ns → ItemsOf C r ws →
      ItemsOf C (.ip d nets r) (.key "ip" :: .key (dirWord d) :: (ns ++ ws))
  | paren (c : Chain) (r : Items) (cs ws : List Word) : ChainOf C c cs → ItemsOf C r ws →
      ItemsOf C (.paren c r) (.key "(" :: (cs ++ .key ")" :: ws))
end

/-- Comments. -/
abbrev CommentWords := CommentsOf CommentBody
/-- The words of a filter. -/
abbrev ChainWords := ChainOf CommentBody
/-- The words of an operand. -/
abbrev SetWords := SetOf CommentBody
/-- The words of the clauses of an operand. -/
abbrev ItemsWords := ItemsOf CommentBody

/-- Any comment body. -/
def AnyBody : List Char → Prop := fun _ => True

/-- The text consists of the texts of these words in this order with any white space, or none, between them. -/
inductive Loose : List Word → List Char → Prop
  | nil (b : List Char) : (∀ c ∈ b, isSpace c = true) → Loose [] b
  | cons (b : List Char) (w : Word) (ws : List Word) (t : List Char) : (∀ c ∈ b, isSpace c = true) → Loose ws t →
      Loose (w :: ws) (b ++ (w.text ++ t))

mutual
/-- The number of operators and parentheses one inside the other, hence of nested calls of the parser. -/
def chainDepth : Chain → Nat
  | .one s => setDepth s + 1
  | .more s _ c => max (setDepth s) (chainDepth c) + 1
def setDepth : SetSyn → Nat
  | .mk _ objs => itemsDepth objs
def itemsDepth : Items → Nat
  | .nil => 0
  | .comment r => itemsDepth r
  | .ip _ _ r => itemsDepth r
  | .paren c r => max (chainDepth c) (itemsDepth r)
end

mutual
/-- The filter without its comments. -/
def bareChain : Chain → Chain
  | .one s => .one (bareSet s)
  | .more s o c => .more (bareSet s) o (bareChain c)
def bareSet : SetSyn → SetSyn
  | .mk id objs => .mk id (bareItems objs)
def bareItems : Items → Items
  | .nil => .nil
  | .comment r => bareItems r
  | .ip d nets r => .ip d nets (bareItems r)
  | .paren c r => .paren (bareChain c) (bareItems r)
end

/-- How TatSu treats tokens in front of further characters (`nameguard`): a token is never refused in front of a
character that is no letter or digit, nor at the end; a token of letters and digits that begins with a letter is refused
in front of a letter or digit. -/
structure NameGuard (g : Lookup.Guard) : Prop where
  passes : ∀ n c t, c.isAlphanum = false → g n (c :: t) = true
  ends : ∀ n, g n [] = true
  refuses : ∀ n c t, (∃ a l, n.toList = a :: l ∧ a.isAlpha = true) → (∀ d ∈ n.toList, d.isAlphanum = true) →
    c.isAlphanum = true → g n (c :: t) = false
  symbols : ∀ n t, (∃ d ∈ n.toList, d.isAlphanum = false) → g n t = true

end Acltk.CafText
