import Verif.Format.GenSyntaxMain
import Verif.Format.PropsGenGen

/-!
# C54: the syntax of `gen/GEN`

The syntax is given by `GenLineIs` and `FileIs` (`Verif.Format.GenSyntaxSpec`), which do not refer to
the parser.
-/
namespace TM.Format

/-- **C54.**  The parser accepts exactly the texts of the syntax and reads their lines as the syntax
says, for every text and every kind of newline, with or without a newline at the end. -/
theorem gen_syntax {content : Text} {lines : List GenLine} :
    parseGen content = some lines ↔ FileIs GenLineIs content lines :=
  ⟨fun h => file_sound _ h, fun h => file_complete h _ (by omega)⟩

/-- **C54, no ambiguity.**  A text has at most one reading. -/
theorem gen_syntax_unique {content : Text} {l₁ l₂ : List GenLine}
    (h₁ : FileIs GenLineIs content l₁) (h₂ : FileIs GenLineIs content l₂) : l₁ = l₂ := by
  rw [← gen_syntax] at h₁ h₂
  rw [h₁] at h₂
  exact Option.some.inj h₂

/-- **C54 and C37.**  The whole reader, from the text to the entries. -/
theorem gen_text_iff {env : GenEnv} {content : Text} {es : List Entry} :
    parseGenGen env content = .ok es ↔ ∃ lines gen, FileIs GenLineIs content lines ∧
      env.generators = [gen] ∧ Accepted env lines ∧ es = genEntries env gen lines := by
  unfold parseGenGen
  constructor
  · intro h
    cases hp : parseGen content with
    | none => rw [hp] at h; cases h
    | some lines =>
      rw [hp] at h
      obtain ⟨gen, h1⟩ := gen_iff.1 h
      exact ⟨lines, gen, gen_syntax.1 hp, h1⟩
  · rintro ⟨lines, gen, h1, h2⟩
    rw [gen_syntax.2 h1]
    exact gen_iff.2 ⟨gen, h2⟩

/-- A text with every kind of line. -/
example : parseGen "#ST: 10 # ten\n#STNAME:\ta\r\n#STDEP: a  *\n#STDEP:\n#COPY:x/y\n\t 1  2#3\n  # c\n## d\r# e\n".toList =
    some [.subtask "10".toList, .subtaskName "a".toList, .subtaskDep ["a".toList, "*".toList],
      .subtaskDep [], .copy "x/y".toList, .command ["1".toList, "2".toList], .empty, .comment, .comment,
      .empty] := by decide +kernel

/-- A comment needs a blank or another `#` after the `#`: `#comment` is refused, and so are a score
with a fraction, a name of two words and a misspelled keyword. -/
theorem refused_texts : ["#comment", "#ST: 12.5", "#STNAME: a b", "#STNAMES: a", "#st: 10", "#ST 10",
    "1 2\n#COPY:"].map (fun s => parseGen s.toList) = List.replicate 7 none := by decide +kernel

end TM.Format
