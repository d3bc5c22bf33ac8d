import Verif.Parse.Spec

/-!
# Loading an IOI task: concrete tasks
-/
namespace TM.Parse
open TM AMap TM.Find

/-- A task in `/t` with those files; the directories are those of the files. -/
def sampleWorld (files : List (String × String × String)) : World where
  cwd := [['t']]
  fs := files.map (fun f => ([['t']] ++ (if f.1 = "" then [] else [f.1.toList]) ++ [f.2.1.toList], .file (some f.2.2.toList))) ++
    ((files.map (·.1)).eraseDups.filter (fun d => d ≠ "")).map (fun d => ([['t'], d.toList], .dir)) ++
    [([['t']], .dir), ([], .dir)]

def samplePath : RPath := ⟨true, [['t']]⟩

/-- Two yaml files. -/
def sampleYaml : Doc :=
  [("nome_breve".toList, .str "easy".toList), ("title".toList, .str "An easy task".toList),
   ("time_limit".toList, .int 2), ("memlimit".toList, .int 256), ("infile".toList, .str []),
   ("score_type".toList, .null), ("user_io".toList, .str "std_io".toList), ("n_input".toList, .int 3)]

def sampleOrig : Doc :=
  [("name".toList, .str "other".toList), ("title".toList, .str "An easy task".toList),
   ("time_limit".toList, .num (3 / 2)), ("memory_limit".toList, .int 256), ("score_type".toList, .str "sum".toList)]

/-- Words separated by spaces. -/
def spaced : Text → Text → List Text
  | acc, [] => if acc.isEmpty then [] else [acc.reverse]
  | acc, c :: cs =>
    if c == ' ' then (if acc.isEmpty then spaced [] cs else acc.reverse :: spaced [] cs)
    else spaced (c :: acc) cs

def sampleEnv : Env where
  yaml t := if t = "yaml".toList then some sampleYaml else if t = "orig".toList then some sampleOrig else none
  split t := some (spaced [] t)
  nfkc := id
  okCategory _ := true
  isSpace c := c = ' ' || c = '\n' || c = '\t' || c = '\r'

/-- A batch task with everything. -/
def batchFiles : List (String × String × String) :=
  [("", "task.yaml", "yaml"), ("gen", "GEN", "#ST: 40\n1 2\n#ST: 60\n3\n4\n"), ("gen", "generator.py", ""),
   ("gen", "valida.cpp", ""), ("sol", "soluzione.cpp", ""), ("sol", "grader.cpp", ""), ("cor", "correttore.cpp", ""),
   ("check", "checker.txt", "")]

/-- A communication task with the inputs in `input/`. -/
def commFiles : List (String × String × String) :=
  [("", "task.yaml.orig", "orig"), ("check", "manager.cpp", ""), ("check", "checker.cpp", ""), ("cor", "correttore.cpp", ""),
   ("input", "input0.txt", ""), ("input", "input1.txt", ""), ("input", "input3.txt", "")]

/-- A task with `gen/cases.gen` and two validators. -/
def casesFiles : List (String × String × String) :=
  [("", "task.yaml", "yaml"), ("gen", "cases.gen", ":GEN g gen/generator.py N\n:SUBTASK 100\n1\n:COPY task.yaml\n"),
   ("gen", "generator.py", ""), ("gen", "valida.cpp", ""), ("gen", "validator.py", "")]

/-- A task with an old version of its solution. -/
def backupFiles : List (String × String × String) :=
  [("", "task.yaml", "yaml"), ("sol", "solution.cpp", ""), ("sol", "solution.old.cpp", "")]

end TM.Parse
