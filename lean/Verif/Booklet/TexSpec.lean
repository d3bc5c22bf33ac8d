import Verif.Booklet.Tex
/-!
# What the text of a booklet has to be (C98), line by line
-/
namespace TM.Booklet.Spec
open TM TM.Text

/-- `\usepackage`. -/
def use : Text := ['\\', 'u', 's', 'e', 'p', 'a', 'c', 'k', 'a', 'g', 'e']

/-- What a line of a statement becomes, and the text that it adds to the preamble of the booklet. -/
inductive Line : Text → Text → Option Text → Prop where
  /-- no `\usepackage` followed by something: the line is kept -/
  | kept {l : Text} (h : ∀ a b, l = a ++ use ++ b → b = []) : Line l l none
  /-- the line from the first `\usepackage` on is moved to the preamble, what is before it is kept -/
  | moved {a b : Text} (hb : b ≠ []) (first : ∀ a' b', a ++ use ++ b = a' ++ use ++ b' → a.length ≤ a'.length) :
      Line (a ++ use ++ b) (a ++ ['%', ' '] ++ use ++ b) (some (use ++ b))

/-- LaTeX reads a `\usepackage` with something after it on this line: a backslash and the character after it go together, a
`%` that is not after a backslash ends the line. -/
def loads : Text → Bool
  | [] => false
  | '%' :: _ => false
  | '\\' :: c :: cs => (use.isPrefixOf ('\\' :: c :: cs) && decide (use.length < cs.length + 2)) || loads cs
  | _ :: cs => loads cs

end TM.Booklet.Spec
