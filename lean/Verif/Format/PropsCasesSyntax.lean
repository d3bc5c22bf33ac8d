import Verif.Format.CasesSyntaxMain
import Verif.Format.PropsCases

/-!
# C55: the syntax of `gen/cases.gen`

The syntax is given by `CasesLineIs` and `FileIs` (`Verif.Format.CasesSyntaxSpec`,
`Verif.Format.GenSyntaxSpec`), which do not refer to the parser.
-/
namespace TM.Format

/-- **C55.**  The parser accepts exactly the texts of the syntax and reads their lines as the syntax
says, for every text and every kind of newline, with or without a newline at the end. -/
theorem cases_syntax {content : Text} {lines : List CLine} :
    parseCases content = some lines ↔ FileIs CasesLineIs content lines :=
  ⟨fun h => cFile_sound _ h, fun h => cFile_complete h _ (by omega)⟩

/-- **C55, no ambiguity.**  A text has at most one reading. -/
theorem cases_syntax_unique {content : Text} {l₁ l₂ : List CLine}
    (h₁ : FileIs CasesLineIs content l₁) (h₂ : FileIs CasesLineIs content l₂) : l₁ = l₂ := by
  rw [← cases_syntax] at h₁ h₂
  rw [h₁] at h₂
  exact Option.some.inj h₂

/-- **C55 and C38.**  The whole reader, from the text to the verdict: a text is read exactly when it
has the syntax and its lines are accepted. -/
theorem cases_text_iff {env : CasesEnv} {content : Text} :
    (∃ es, parseCasesGen env content = .ok es) ↔
      ∃ lines, FileIs CasesLineIs content lines ∧ CasesAccepted env lines := by
  unfold parseCasesGen
  constructor
  · rintro ⟨es, h⟩
    cases hp : parseCases content with
    | none => rw [hp] at h; cases h
    | some lines =>
      rw [hp] at h
      exact ⟨lines, cases_syntax.1 hp, cases_accepts.1 ⟨es, h⟩⟩
  · rintro ⟨lines, h1, h2⟩
    rw [cases_syntax.2 h1]
    exact cases_accepts.2 h2

/-- A text with every kind of line. -/
example : parseCases ("# top\r\n:GEN g gen.py N M # c\n: VAL v val.py\t$INPUT \n:GEN g\n:VAL v\n" ++
    ":CONSTRAINT 1 <= $N < +10\n:SUBTASK 12.5 first one #x\n:SUBTASK 7\n:STDEP a\t*\n" ++
    ":COPY x y.txt#\n:RUN g  1 2\n3 4 # t\n\n").toList =
    some [.comment, .command (.genDefine "g".toList "gen.py".toList " N M".toList),
      .command (.valDefine "v".toList "val.py".toList "\t$INPUT".toList),
      .command (.genSelect "g".toList), .command (.valSelect "v".toList),
      .command (.constraint (.number "1".toList) [(.lessEqual, .var "N".toList), (.less, .number "+10".toList)]),
      .command (.subtask "12.5".toList (some "first one ".toList)), .command (.subtask "7".toList none),
      .command (.stDep ["a".toList, "*".toList]), .command (.copy "x y.txt".toList),
      .command (.run "g".toList "1 2".toList), .testcase "3 4 ".toList, .empty, .empty] := by decide +kernel

/-- A `:` starts a command wherever it opens a line, keywords are case sensitive, a constraint needs at
least one comparison, a score is not signed and `:RUN` needs arguments. -/
theorem cases_refused_texts : [":", ":gen g", ":NOPE 1", ":CONSTRAINT 1", ":CONSTRAINT $N<5", ":SUBTASK -1",
    ":SUBTASK 1.", ":RUN g", ":COPY", ":GENg"].map (fun s => parseCases s.toList) =
    List.replicate 10 none := by decide +kernel

end TM.Format
