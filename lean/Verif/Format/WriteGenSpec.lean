import Verif.Format.WriteGen
import Verif.Format.GenSyntaxSpec
/-!
# What the `gen/GEN` written by task-maker says (C103)
-/
namespace TM.Format

/-- An entry read from the file written: the same subtask (points, name, number) or the same testcase (number, copied file or
program run, official output). -/
inductive SameEntry : Entry → Entry → Prop
  | subtask {s s' : Subtask} : s'.id = s.id → s'.maxScore = s.maxScore → s'.name = s.name → s'.isDefault = s.isDefault →
      SameEntry (.subtask s) (.subtask s')
  | copy {t t' : Testcase} {p : Text} : t'.id = t.id → t'.output = t.output → t.input = .staticFile p → t'.input = .staticFile p →
      SameEntry (.testcase t) (.testcase t')
  | command {t t' : Testcase} {src gen : Source} {args ws : List Text} : t'.id = t.id → t'.output = t.output →
      t.input = .custom src args → t'.input = .custom gen (sourceName src :: ws) → ((∀ a ∈ args, Word a) → ws = args) →
      SameEntry (.testcase t) (.testcase t')

/-- The same entries, one by one. -/
inductive SameEntries : List Entry → List Entry → Prop
  | nil : SameEntries [] []
  | cons {e e' : Entry} {es es' : List Entry} : SameEntry e e' → SameEntries es es' → SameEntries (e :: es) (e' :: es')

/-- What the file can express: whole points, names the reader accepts, paths and names of programs without blanks, and an official
solution for the generated testcases. -/
structure Expressible (genv : GenEnv) (w : Writer) (es : List Entry) : Prop where
  scores : ∀ s, Entry.subtask s ∈ es → ∃ n : Nat, s.maxScore = (n : Rat)
  names : ∀ s n, Entry.subtask s ∈ es → s.name = some n → cleanupName genv n = some n
  copies : ∀ t p, Entry.testcase t ∈ es → t.input = .staticFile p →
    Word ((w.strip p).getD p) ∧ genv.join ((w.strip p).getD p) = p
  programs : ∀ t src args, Entry.testcase t ∈ es → t.input = .custom src args →
    Word (sourceName src) ∧ (∀ a ∈ args, OneLine a) ∧ ∀ p, t.output ≠ .staticFile p

end TM.Format
