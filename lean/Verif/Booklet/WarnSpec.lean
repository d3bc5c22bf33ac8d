import Verif.Text.Lines
/-!
# The errors in a log of LaTeX (C99)
-/
namespace TM.Booklet.Spec
open TM.Text

/-- A line of the log that begins an error: `! message`, or `! LaTeX Error: message`. -/
inductive ErrorLine : Text → Text → Prop where
  | latex {m : Text} (h : m ≠ []) : ErrorLine ("! LaTeX Error: ".toList ++ m) m
  | plain {m : Text} (h : m ≠ []) (hn : ∀ m', m = "LaTeX Error: ".toList ++ m' → m' = []) :
      ErrorLine ("! ".toList ++ m) m

/-- A line of the log that says where the error is: `l.42 ...`. -/
inductive PlaceLine : Text → Text → Prop where
  | mk {d rest : Text} (h : d ≠ []) (hd : ∀ c ∈ d, c.isDigit = true) (hr : ∀ c cs, rest = c :: cs → c.isDigit = false) :
      PlaceLine ("l.".toList ++ d ++ rest) d

/-- In these lines every error has its place. -/
def Complete (ls : List Text) : Prop :=
  ∀ a e b m, ls = a ++ e :: b → ErrorLine e m → ∃ p ∈ b, ∃ d, PlaceLine p d

/-- The message `m` is that of the line after `a`, and the first place after it is `d`. -/
def Occurs (ls a : List Text) (m d : Text) : Prop :=
  ∃ e mid p rest, ls = a ++ e :: (mid ++ p :: rest) ∧ ErrorLine e m ∧ PlaceLine p d ∧
    ∀ x ∈ mid, ∀ d', ¬ PlaceLine x d'

/-- The number written with these digits. -/
def number : Text → Nat
  | ds => ds.foldl (fun n c => n * 10 + (c.toNat - 48)) 0

/-- The place that is shown: the number, when it is one of 32 bits. -/
def shown (d : Text) : Option Nat := if number d ≤ 2147483647 then some (number d) else none

end TM.Booklet.Spec
