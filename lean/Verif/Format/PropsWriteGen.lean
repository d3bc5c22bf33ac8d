import Verif.Format.WriteGenCases
import Verif.Clean.Lemmas
/-!
# C103: the `gen/GEN` written from `gen/cases.gen`
-/
namespace TM.Format
open TM AMap

/-- **C103** (partial: what the file cannot express is left out, see `Expressible` and the witnesses below; the dependencies are
lost).  Reading the `gen/GEN` that task-maker writes gives the entries of `gen/cases.gen`: the same subtasks, with the same points,
names and numbers, the same testcases in the same places, copying the same files or giving the generator the name of the program
and its arguments, and the same official outputs. -/
theorem written_gen_partial {env : CasesEnv} {genv : GenEnv} {w : Writer} {content text : Text} {es : List Entry} {gen : Source}
    (h : writeFromCases env w content = .ok (text, es)) (hg : genv.generators = [gen]) (ho : genv.outputGen = env.outputGen)
    (hw : ∀ n : Nat, w.showScore (n : Rat) = natText n) (hx : Expressible genv w es) :
    parseCasesGen env content = .ok es ∧
    ∃ es', parseGenGen genv text = .ok es' ∧ SameEntries es es' ∧ ∀ s, Entry.subtask s ∈ es' → s.dependencies = [] := by
  obtain ⟨hp, cs, subs, rfl, h1, h2, h3⟩ := written_made h
  rw [← ho] at h3
  exact ⟨hp, written_read hg hw h1 h2 hx h3⟩

/-- **C103, touched again only by task-maker.**  The file starts with the lines that allow task-maker to rewrite or remove it, and
it is written exactly when `gen/cases.gen` is accepted. -/
theorem written_header {env : CasesEnv} {w : Writer} {content : Text} :
    (∀ text es, writeFromCases env w content = .ok (text, es) → ∃ body, text = Clean.header ++ body ∧ Clean.AllowsDelete text) ∧
    ((∃ r, writeFromCases env w content = .ok r) ↔ ∃ es, parseCasesGen env content = .ok es) := by
  constructor
  · intro text es h
    obtain ⟨_, cs, subs, rfl, _⟩ := written_made h
    have hb : ∃ body, writeGen w cs subs es = Clean.header ++ body := by
      refine ⟨'\n' :: (constraintLines cs ++ es.flatMap (entryLines w subs)).flatMap (· ++ ['\n']), ?_⟩
      have : headerLines.flatMap (· ++ ['\n']) = Clean.header ++ ['\n'] := by decide +kernel
      unfold writeGen genTextLines
      rw [List.append_assoc, List.flatMap_append, this]
      simp
    obtain ⟨body, hb⟩ := hb
    exact ⟨body, hb, by rw [hb]; exact Clean.header_allows body⟩
  · constructor
    · rintro ⟨⟨text, es⟩, h⟩
      exact ⟨es, (written_made h).1⟩
    · rintro ⟨es, h⟩
      unfold parseCasesGen at h
      unfold writeFromCases
      split at h
      · cases h
      next lines hp =>
      rw [hp]
      cases hl : casesLoop env {} lines with
      | error e => simp [interpCases, hl] at h
      | ok st => simp only [hl, h]; exact ⟨_, rfl⟩

/-! ## Concrete cases -/

/-- `Display` of the points of the examples: whole, or with one decimal digit. -/
def show1 (r : Rat) : Text :=
  if r.den = 1 then natText r.num.toNat
  else natText ((r * 10).num.toNat / 10) ++ '.' :: natText ((r * 10).num.toNat % 10)

def writer0 : Writer where
  strip := fun p => if "/t/".toList.isPrefixOf p then some (p.drop 3) else none
  showScore := show1

def genEnv0 : GenEnv where
  validator := fun _ => .assumeValid
  outputGen := casesEnv0.outputGen
  generators := ["/t/gen/generator.py".toList]
  join := casesEnv0.join
  nfkc := id
  okCategory := fun c => c.isAlphanum || c == '_'
  isSpace := fun c => c == ' '

theorem show1_whole (n : Nat) : show1 (n : Rat) = natText n := by
  have h1 : ((n : Nat) : Rat).den = 1 := rfl
  have h2 : ((n : Nat) : Rat).num = n := rfl
  simp [show1, h1, h2]

def wholeFile : Text :=
  (":GEN g gen/g.py N M\n:CONSTRAINT 1 <= $N < 10\n:SUBTASK 30 first one\n:CONSTRAINT $M > -5\n" ++
   "1 2\n3 4 # c\n:SUBTASK 70\n:COPY foo.txt\n:RUN g 7 x#y\n").toList

/-- The text written for a file with every kind of entry, and what it says when it is read again. -/
example : (match writeFromCases casesEnv0 writer0 wholeFile with
    | .ok (text, es) => decide (text =
        ("# Generated by task-maker. Do not edit!\n# tm-allow-delete\n" ++
         "# Removing or changing the line above will prevent task-maker from touching this file again.\n\n" ++
         "# Constraints:\n# 1 <= $N < 10\n\n# Subtask 0\n#ST: 30\n#STNAME: firstone\n# $M > -5\n" ++
         "# Testcase 0\ng.py 1 2\n# Testcase 1\ng.py 3 4\n\n# Subtask 1\n#ST: 70\n# Testcase 2\n#COPY: foo.txt\n" ++
         "# Testcase 3\ng.py 7 x\n").toList) &&
      (match parseGenGen genEnv0 text with
       | .ok es' => decide (es' = [
          .subtask { id := 0, maxScore := 30, name := some "firstone".toList },
          .testcase ⟨0, .custom "/t/gen/generator.py".toList ["g.py".toList, "1".toList, "2".toList], .custom "sol.py".toList⟩,
          .testcase ⟨1, .custom "/t/gen/generator.py".toList ["g.py".toList, "3".toList, "4".toList], .custom "sol.py".toList⟩,
          .subtask { id := 1, maxScore := 70 },
          .testcase ⟨2, .staticFile "/t/foo.txt".toList, .custom "sol.py".toList⟩,
          .testcase ⟨3, .custom "/t/gen/generator.py".toList ["g.py".toList, "7".toList, "x".toList], .custom "sol.py".toList⟩]) &&
          decide (es.length = 6)
       | .error _ => false)
    | .error _ => false) = true := by decide +kernel

/-- The entries of the example. -/
def wholeEntries : List Entry := [
  .subtask { id := 0, maxScore := 30, name := some "firstone".toList, description := some "first one".toList },
  .testcase ⟨0, .custom "/t/gen/g.py".toList ["1".toList, "2".toList], .custom "sol.py".toList⟩,
  .testcase ⟨1, .custom "/t/gen/g.py".toList ["3".toList, "4".toList], .custom "sol.py".toList⟩,
  .subtask { id := 1, maxScore := 70 },
  .testcase ⟨2, .staticFile "/t/foo.txt".toList, .custom "sol.py".toList⟩,
  .testcase ⟨3, .custom "/t/gen/g.py".toList ["7".toList, "x".toList], .custom "sol.py".toList⟩]

theorem wordB {t : Text} (h : (t ≠ [] && t.all fun c => c != ' ' && c != '\t' && c != '#' && c != '\n' && c != '\r') = true) :
    Word t := by
  simp only [Bool.and_eq_true, decide_eq_true_eq, List.all_eq_true, bne_iff_ne] at h
  exact ⟨h.1, fun c hc => ⟨(h.2 c hc).1.1.1.1, (h.2 c hc).1.1.1.2, (h.2 c hc).1.1.2, (h.2 c hc).1.2, (h.2 c hc).2⟩⟩

/-- The hypotheses of `written_gen_partial` are met. -/
theorem whole_expressible : (∃ text, writeFromCases casesEnv0 writer0 wholeFile = .ok (text, wholeEntries)) ∧
    genEnv0.generators = ["/t/gen/generator.py".toList] ∧ genEnv0.outputGen = casesEnv0.outputGen ∧
    (∀ n : Nat, writer0.showScore (n : Rat) = natText n) ∧ Expressible genEnv0 writer0 wholeEntries := by
  refine ⟨?_, rfl, rfl, show1_whole, ?_, ?_, ?_, ?_⟩
  · have h : (match writeFromCases casesEnv0 writer0 wholeFile with
        | .ok (_, es) => decide (es = wholeEntries)
        | .error _ => false) = true := by decide +kernel
    split at h
    · next text es he => exact ⟨text, by rw [he, of_decide_eq_true h]⟩
    · cases h
  · intro s hs
    simp only [wholeEntries, List.mem_cons, List.not_mem_nil, or_false, Entry.subtask.injEq, reduceCtorEq, false_or] at hs
    rcases hs with rfl | rfl
    · exact ⟨30, rfl⟩
    · exact ⟨70, rfl⟩
  · intro s n hs hn
    simp only [wholeEntries, List.mem_cons, List.not_mem_nil, or_false, Entry.subtask.injEq, reduceCtorEq, false_or] at hs
    rcases hs with rfl | rfl
    · cases hn; decide +kernel
    · cases hn
  · intro t p ht hi
    simp only [wholeEntries, List.mem_cons, List.not_mem_nil, or_false, Entry.testcase.injEq, reduceCtorEq, false_or] at ht
    rcases ht with rfl | rfl | rfl | rfl
    · cases hi
    · cases hi
    · cases hi; exact ⟨wordB (by decide +kernel), by decide +kernel⟩
    · cases hi
  · intro t src args ht hi
    simp only [wholeEntries, List.mem_cons, List.not_mem_nil, or_false, Entry.testcase.injEq, reduceCtorEq, false_or] at ht
    rcases ht with rfl | rfl | rfl | rfl
    · cases hi
      exact ⟨wordB (by decide +kernel), by intro a ha; exact litOne (List.all_eq_true.1 (by decide +kernel :
        ([("1".toList), "2".toList].all fun l => l.all fun c => c != '\n' && c != '\r') = true) a ha), by intro p hp; cases hp⟩
    · cases hi
      exact ⟨wordB (by decide +kernel), by intro a ha; exact litOne (List.all_eq_true.1 (by decide +kernel :
        ([("3".toList), "4".toList].all fun l => l.all fun c => c != '\n' && c != '\r') = true) a ha), by intro p hp; cases hp⟩
    · cases hi
    · cases hi
      exact ⟨wordB (by decide +kernel), by intro a ha; exact litOne (List.all_eq_true.1 (by decide +kernel :
        ([("7".toList), "x".toList].all fun l => l.all fun c => c != '\n' && c != '\r') = true) a ha), by intro p hp; cases hp⟩

/-- What reading the file written gives, for a text. -/
def reread (content : Text) : Option (Except GenErr (List Entry)) :=
  match writeFromCases casesEnv0 writer0 content with
  | .ok (text, _) => some (parseGenGen genEnv0 text)
  | .error _ => none

/-- Points with a fraction, a copied file with a blank in its path: `gen/cases.gen` is accepted and the file written from it is
not; a name with a `*` is not valid. -/
theorem written_unreadable :
    [":GEN g g.py\n:SUBTASK 12.5\n1\n", ":SUBTASK 10\n:COPY a b.txt\n", ":SUBTASK 10 a*\n"].map
      (fun s => match reread s.toList with
        | some (.error e) => some e
        | _ => none) = [some .syntax, some .syntax, some .invalidName] := by decide +kernel

/-- The dependencies are not in the file written. -/
theorem written_deps_lost : ∃ content s s' es es', parseCasesGen casesEnv0 content = .ok es ∧ Entry.subtask s ∈ es ∧
    s.dependencies = [0] ∧ reread content = some (.ok es') ∧ Entry.subtask s' ∈ es' ∧ s'.id = s.id ∧ s'.dependencies = [] := by
  refine ⟨":SUBTASK 10 a\n:SUBTASK 20 b\n:STDEP a\n".toList,
    { id := 1, maxScore := 20, name := some "b".toList, description := some "b".toList, dependencies := [0] },
    { id := 1, maxScore := 20, name := some "b".toList },
    [.subtask { id := 0, maxScore := 10, name := some "a".toList, description := some "a".toList },
     .subtask { id := 1, maxScore := 20, name := some "b".toList, description := some "b".toList, dependencies := [0] }],
    [.subtask { id := 0, maxScore := 10, name := some "a".toList }, .subtask { id := 1, maxScore := 20, name := some "b".toList }],
    ?_, by simp, rfl, ?_, by simp, rfl, rfl⟩
  · have h : (match parseCasesGen casesEnv0 ":SUBTASK 10 a\n:SUBTASK 20 b\n:STDEP a\n".toList with
      | .ok es => decide (es = [.subtask { id := 0, maxScore := 10, name := some "a".toList, description := some "a".toList },
          .subtask { id := 1, maxScore := 20, name := some "b".toList, description := some "b".toList, dependencies := [0] }])
      | .error _ => false) = true := by decide +kernel
    split at h
    · next he => rw [he, of_decide_eq_true h]
    · cases h
  · have h : (match reread ":SUBTASK 10 a\n:SUBTASK 20 b\n:STDEP a\n".toList with
      | some (.ok es) => decide (es = [.subtask { id := 0, maxScore := 10, name := some "a".toList },
          .subtask { id := 1, maxScore := 20, name := some "b".toList }])
      | _ => false) = true := by decide +kernel
    split at h
    · next he => rw [he, of_decide_eq_true h]
    · cases h

end TM.Format
