import Verif.Format.GenLine

/-!
# The syntax of `gen/GEN`

What the lines of a `gen/GEN` file look like, without any parser.
-/
namespace TM.Format

/-- Spaces and tabs. -/
def Blank (a : Text) : Prop := ∀ c ∈ a, c = ' ' ∨ c = '\t'

/-- A word: one or more characters that are not spaces, tabs, `#` or newlines. -/
def Word (w : Text) : Prop :=
  w ≠ [] ∧ ∀ c ∈ w, c ≠ ' ' ∧ c ≠ '\t' ∧ c ≠ '#' ∧ c ≠ '\n' ∧ c ≠ '\r'

/-- One or more digits. -/
def Digits (n : Text) : Prop := n ≠ [] ∧ ∀ c ∈ n, '0'.toNat ≤ c.toNat ∧ c.toNat ≤ '9'.toNat

/-- No newline. -/
def OneLine (u : Text) : Prop := ∀ c ∈ u, c ≠ '\n' ∧ c ≠ '\r'

/-- Nothing, or a comment up to the end of the line. -/
def Tail (t : Text) : Prop := t = [] ∨ ∃ u, t = '#' :: u ∧ OneLine u

/-- Some words, each one after one or more blanks. -/
inductive Words : List Text → Text → Prop
  | nil : Words [] []
  | cons {b w t : Text} {ws : List Text} : Blank b → b ≠ [] → Word w → Words ws t →
      Words (w :: ws) (b ++ (w ++ t))

/-- What a line of `gen/GEN` says. -/
inductive GenLineIs : Text → GenLine → Prop
  | subtask {a n b t : Text} : Blank a → Digits n → Blank b → Tail t →
      GenLineIs ("#ST:".toList ++ (a ++ (n ++ (b ++ t)))) (.subtask n)
  | subtaskName {a n b t : Text} : Blank a → Word n → Blank b → Tail t →
      GenLineIs ("#STNAME:".toList ++ (a ++ (n ++ (b ++ t)))) (.subtaskName n)
  | noDep {b t : Text} : Blank b → Tail t →
      GenLineIs ("#STDEP:".toList ++ (b ++ t)) (.subtaskDep [])
  | subtaskDep {a w m b t : Text} {ws : List Text} : Blank a → Word w → Words ws m → Blank b → Tail t →
      GenLineIs ("#STDEP:".toList ++ (a ++ (w ++ (m ++ (b ++ t))))) (.subtaskDep (w :: ws))
  | copy {a n b t : Text} : Blank a → Word n → Blank b → Tail t →
      GenLineIs ("#COPY:".toList ++ (a ++ (n ++ (b ++ t)))) (.copy n)
  | comment {u : Text} : OneLine u → (∀ c, u.head? = some c → c = ' ' ∨ c = '\t' ∨ c = '#') →
      GenLineIs ('#' :: u) .comment
  | command {a w m b t : Text} {ws : List Text} : Blank a → Word w → Words ws m → Blank b → Tail t →
      GenLineIs (a ++ (w ++ (m ++ (b ++ t)))) (.command (w :: ws))
  | empty {a t : Text} : Blank a → Tail t → (a = [] → t = []) → GenLineIs (a ++ t) .empty

/-- The lines of a text, with what each one says. A newline is `\n`, `\r\n` or `\r`. -/
inductive FileIs {L : Type} (lineIs : Text → L → Prop) : Text → List L → Prop
  | last {s : Text} {l : L} : lineIs s l → FileIs lineIs s [l]
  | line {s nl rest : Text} {l : L} {ls : List L} : lineIs s l →
      (nl = ['\n'] ∨ nl = ['\r', '\n'] ∨ (nl = ['\r'] ∧ rest.head? ≠ some '\n')) →
      FileIs lineIs rest ls → FileIs lineIs (s ++ (nl ++ rest)) (l :: ls)

end TM.Format
