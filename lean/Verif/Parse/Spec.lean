import Verif.Parse.Model

/-!
# Loading an IOI task: specification
-/
namespace TM.Parse
open TM AMap TM.Find

/-- The directory of the task has, in one of the places, a source in a known language: a place is a directory
of the task with a name, and the file has that name, a dot and something else. -/
def Part (w : World) (base : RPath) (places : List (String × String)) (p : RPath) (l : Sanity.Language) :
    Prop :=
  ∃ dir stem ext, (dir, stem) ∈ places ∧ HasEntry w base dir.toList (stem.toList ++ '.' :: ext) ∧
    p = inDir base dir.toList (stem.toList ++ '.' :: ext) ∧ Sanity.SourceIn l (stem.toList ++ '.' :: ext)

/-- There is none. -/
def NoPart (w : World) (base : RPath) (places : List (String × String)) : Prop :=
  ∀ p l, ¬ Part w base places p l

/-- There is exactly one. -/
def OnlyPart (w : World) (base : RPath) (places : List (String × String)) (p : RPath) (l : Sanity.Language) :
    Prop :=
  Part w base places p l ∧ ∀ q l', Part w base places q l' → q = p

/-- There are two of them. -/
def ManyParts (w : World) (base : RPath) (places : List (String × String)) : Prop :=
  ∃ p l q l', Part w base places p l ∧ Part w base places q l' ∧ p ≠ q

def validators : List (String × String) := [("gen", "validator"), ("gen", "valida")]
def generators : List (String × String) := [("gen", "generator"), ("gen", "generatore")]
def officials : List (String × String) := [("sol", "solution"), ("sol", "soluzione")]
def checkers : List (String × String) := [("check", "checker"), ("cor", "correttore")]
def managers : List (String × String) := [("check", "manager"), ("cor", "manager")]

/-- A source of the task that is compiled to `bin` in the task directory. -/
def plainSrc (base : RPath) (graders : Bool) (bin : String) (p : RPath) (l : Sanity.Language) : Src where
  path := p
  language := l
  graders := graders
  writeBin := some ⟨base.abs, base.comps ++ ["bin".toList, bin.toList]⟩
  copyExe := false
  linkStatic := false

/-- The source is at `p`, without the extension it is `bin`. -/
def NextTo (p bin : RPath) : Prop :=
  ∃ cs stem ext, '.' ∉ ext ∧ p = ⟨bin.abs, cs ++ [stem ++ '.' :: ext]⟩ ∧ bin.comps = cs ++ [stem]

/-- A source that is compiled statically, and copied next to its source whatever the options. -/
def Shipped (s : Src) (p : RPath) (l : Sanity.Language) : Prop :=
  s.path = p ∧ s.language = l ∧ s.graders = false ∧ s.copyExe = true ∧ s.linkStatic = true ∧
    ∃ bin, s.writeBin = some bin ∧ NextTo p bin

/-- The search of a part of the task: nothing when there is none, the only one when there is one, and the error
when there are more. -/
def Finds (r : Except Err (Option Src)) (w : World) (base : RPath) (places : List (String × String)) (er : Err)
    (made : Src → RPath → Sanity.Language → Prop) : Prop :=
  (r = .ok none ↔ NoPart w base places) ∧
  (∀ s, r = .ok (some s) ↔ ∃ p l, OnlyPart w base places p l ∧ made s p l) ∧
  (∀ e, r = .error e ↔ e = er ∧ ManyParts w base places)

/-- The values of `user_io`. -/
inductive IoOf : Option Text → UserIo → Prop where
  | missing : IoOf none .fifoIo
  | std : IoOf (some "std_io".toList) .stdIo
  | fifo : IoOf (some "fifo_io".toList) .fifoIo

/-- The checker of a batch task. -/
def CheckerOf (w : World) (base : RPath) (c : Checker) : Prop :=
  (NoPart w base checkers ∧ c = .whiteDiff) ∨
  ∃ p l s, OnlyPart w base checkers p l ∧ Shipped s p l ∧ c = .custom s

/-- The official solution of a batch task. -/
def OfficialOf (w : World) (base : RPath) (o : Option Src) : Prop :=
  (NoPart w base officials ∧ o = none) ∨
  ∃ p l, OnlyPart w base officials p l ∧ o = some (plainSrc base true "official_solution" p l)

/-- The validator of a task. -/
def ValidatorOf (w : World) (base : RPath) (v : Option Nat → Format.Validator) : Prop :=
  (NoPart w base validators ∧ ∀ st, v st = .assumeValid) ∨
  ∃ p l, OnlyPart w base validators p l ∧
    v none = .custom (pathText p) ["tm_validation_file".toList, "0".toList] ∧
    ∀ st, v (some st) = .custom (pathText p) ["tm_validation_file".toList, Nat.toDigits 10 (st + 1)]

/-- The kind of a task. -/
inductive KindOf (w : World) (base : RPath) (y : Yaml) : Kind → Prop where
  | communication {p l m io} : OnlyPart w base managers p l → Shipped m p l → IoOf y.userIo io →
      KindOf w base y (.communication m (y.processes.getD 1) io)
  | batch {o c} : NoPart w base managers → CheckerOf w base c → OfficialOf w base o → KindOf w base y (.batch o c)

/-! ## task.yaml -/

/-- One of the names has that value in the file. -/
def Says (d : Doc) (names : List String) (v : Val) : Prop := ∃ k ∈ names, (k.toList, v) ∈ d

/-- The file does not have the field. -/
def Silent (d : Doc) (names : List String) : Prop := ∀ v, ¬ Says d names v

/-- There are not two values for the field. -/
def Once (d : Doc) (names : List String) : Prop :=
  (d.filter (fun e => decide (e.1 ∈ names.map String.toList))).length ≤ 1

/-- The values and what they mean. -/
inductive IsText : Val → Text → Prop where
  | mk (t : Text) : IsText (.str t) t

inductive IsNat (bound : Nat) : Val → Nat → Prop where
  | mk (n : Nat) : n < bound → IsNat bound (.int n) n

inductive IsNum : Val → Rat → Prop where
  | int (i : Int) : IsNum (.int i) i
  | num (q : Rat) : IsNum (.num q) q

inductive IsBool : Val → Bool → Prop where
  | mk (b : Bool) : IsBool (.bool b) b

inductive IsAggregator : Val → Aggregator → Prop where
  | min : IsAggregator (.str "min".toList) .min
  | groupMin : IsAggregator (.str "GroupMin".toList) .min
  | sum : IsAggregator (.str "sum".toList) .sum
  | groupSum : IsAggregator (.str "Sum".toList) .sum

inductive IsPairs : Val → List (Rat × Text) → Prop where
  | mk (l : List (Rat × Text)) : IsPairs (.pairs l) l

/-- The value of a field that has to be there. -/
def Needs {α : Type} (R : Val → α → Prop) (d : Doc) (names : List String) (a : α) : Prop :=
  Once d names ∧ ∃ v, Says d names v ∧ R v a

/-- The value of a field that may be missing, or be `null`. -/
def May {α : Type} (R : Val → α → Prop) (d : Doc) (names : List String) (a : Option α) : Prop :=
  Once d names ∧
    ((a = none ∧ (Silent d names ∨ Says d names .null)) ∨ ∃ v x, Says d names v ∧ R v x ∧ a = some x)

/-- The value of a field that may be missing. -/
def Else {α : Type} (R : Val → α → Prop) (dflt : α) (d : Doc) (names : List String) (a : α) : Prop :=
  Once d names ∧ ((a = dflt ∧ Silent d names) ∨ ∃ v, Says d names v ∧ R v a)

/-- What a `task.yaml` says. -/
structure YamlSays (d : Doc) (y : Yaml) : Prop where
  name : Needs IsText d ["name", "nome_breve"] y.name
  title : Needs IsText d ["title", "nome"] y.title
  scoreType : May IsAggregator d ["score_type"] y.scoreType
  params : May IsPairs d ["score_type_parameters"] y.params
  precision : Else (IsNat (2 ^ 64)) 0 d ["score_precision"] y.precision
  language : May IsText d ["primary_language"] y.language
  time : May IsNum d ["time_limit", "timeout"] y.time
  memory : May (IsNat (2 ^ 64)) d ["memory_limit", "memlimit"] y.memory
  outputOnly : Else IsBool false d ["output_only"] y.outputOnly
  infile : Else IsText "input.txt".toList d ["infile"] y.infile
  outfile : Else IsText "output.txt".toList d ["outfile"] y.outfile
  difficulty : May (IsNat (2 ^ 8)) d ["difficulty"] y.difficulty
  syllabus : May (IsNat (2 ^ 8)) d ["syllabuslevel"] y.syllabus
  processes : May (IsNat (2 ^ 8)) d ["num_processes"] y.processes
  userIo : May IsText d ["user_io"] y.userIo
  scoreMode : May IsText d ["score_mode"] y.scoreMode
  tokenMode : May IsText d ["token_mode"] y.tokenMode
  publicTestcases : May IsText d ["public_testcases"] y.publicTestcases
  feedbackLevel : May IsText d ["feedback_level"] y.feedbackLevel

/-- What a `task.yaml.orig` says, in a directory with that name. -/
structure OrigSays (d : Doc) (dirName : Text) (y : Yaml) : Prop where
  name : y.name = dirName ∧ ∃ n, Else IsText [] d ["name"] n
  title : Needs IsText d ["title"] y.title
  scoreType : May IsAggregator d ["score_type"] y.scoreType
  params : y.params = none
  precision : Else (IsNat (2 ^ 64)) 0 d ["score_precision"] y.precision
  language : ∃ l, May IsText d ["primary_language"] l ∧
    ((l = none ∧ y.language = some "en".toList) ∨ (l ≠ none ∧ y.language = l))
  time : ∃ t, Needs IsNum d ["time_limit"] t ∧ y.time = some t
  memory : ∃ m, Needs (IsNat (2 ^ 64)) d ["memory_limit"] m ∧ y.memory = some m
  outputOnly : Else IsBool false d ["output_only"] y.outputOnly
  infile : Else IsText [] d ["infile"] y.infile
  outfile : Else IsText [] d ["outfile"] y.outfile
  difficulty : May (IsNat (2 ^ 8)) d ["difficulty"] y.difficulty
  syllabus : May (IsNat (2 ^ 8)) d ["syllabuslevel"] y.syllabus
  processes : May (IsNat (2 ^ 8)) d ["num_processes"] y.processes
  userIo : May IsText d ["user_io"] y.userIo
  scoreMode : y.scoreMode = some "max_subtask".toList
  tokenMode : y.tokenMode = some "disabled".toList
  publicTestcases : y.publicTestcases = some "all".toList
  feedbackLevel : y.feedbackLevel = some "full".toList

/-! ## The task -/

/-- The path can be written: no component is empty or has a slash, and `.` is only at the beginning of a relative
path. -/
def Writable (p : RPath) : Prop :=
  (∀ n ∈ p.comps, n ≠ [] ∧ '/' ∉ n) ∧ (∀ n ∈ p.comps.tail, n ≠ dot) ∧ (p.abs = true → ∀ n ∈ p.comps, n ≠ dot)

/-- The task has that file, with that text. -/
def HasFile (w : World) (base : RPath) (file : List Name) (content : Text) : Prop :=
  w.fs.get? (w.resolve base ++ file) = some (.file (some content))

/-- There is nothing there. -/
def Missing (w : World) (base : RPath) (file : List Name) : Prop := w.resolve base ++ file ∉ w.fs.keys

/-- The information about the task, and whether it comes from a `task.yaml.orig`. -/
inductive YamlOf (env : Env) (w : World) (base : RPath) : Yaml → Bool → Prop where
  | orig {text d n y} : HasFile w base ["task.yaml.orig".toList] text → env.yaml text = some d →
      base.comps.getLast? = some n → n ≠ dot → n ≠ dotdot → OrigSays d n y → YamlOf env w base y true
  | yaml {text d y} : Missing w base ["task.yaml.orig".toList] → HasFile w base ["task.yaml".toList] text →
      env.yaml text = some d → YamlSays d y → YamlOf env w base y false

/-- The output of a testcase. -/
def OutputsOf (base : RPath) (k : Kind) (f : Nat → Format.OutputGen) : Prop :=
  match k with
  | .batch none _ => ∀ i, f i = .staticFile (pathText (inDir base "output".toList
      ("output".toList ++ Nat.toDigits 10 i ++ ".txt".toList)))
  | .batch (some s) _ => ∀ i, f i = .custom (pathText s.path)
  | .communication _ _ _ => ∀ i, f i = .notAvailable

/-- The subtasks and the testcases of a task: `gen/cases.gen` if it is there, otherwise `gen/GEN` if it is there,
otherwise the consecutive files of `input/`. -/
inductive EntriesOf (env : Env) (w : World) (base : RPath) (k : Kind) : List Format.Entry → Prop where
  | cases {content es} {cenv : Format.CasesEnv} : HasFile w base ["gen".toList, "cases.gen".toList] content →
      OutputsOf base k cenv.outputGen →
      (∀ t, cenv.join t = pathText (base.join (RPath.ofText t))) →
      (∀ t, cenv.pathExists t = true ↔ w.resolve (RPath.ofText t) ∈ w.fs.keys) →
      (∀ t s, cenv.source t = some s ↔ s = t ∧ ∃ n l, (RPath.ofText t).comps.getLast? = some n ∧ Sanity.SourceIn l n) →
      cenv.split = env.split →
      Format.parseCasesGen cenv content = .ok es → EntriesOf env w base k es
  | gen {content es v p l} {genv : Format.GenEnv} : Missing w base ["gen".toList, "cases.gen".toList] →
      HasFile w base ["gen".toList, "GEN".toList] content →
      ValidatorOf w base v → (∀ st, genv.validator st = v (some st)) →
      OutputsOf base k genv.outputGen →
      OnlyPart w base generators p l → genv.generators = [pathText p] →
      (∀ t, genv.join t = pathText (base.join (RPath.ofText t))) →
      genv.nfkc = env.nfkc → genv.okCategory = env.okCategory → genv.isSpace = env.isSpace →
      Format.parseGenGen genv content = .ok es → EntriesOf env w base k es
  | static {v f n} : Missing w base ["gen".toList, "cases.gen".toList] → Missing w base ["gen".toList, "GEN".toList] →
      ValidatorOf w base v → OutputsOf base k f →
      (∀ i < n, HasEntry w base "input".toList ("input".toList ++ Nat.toDigits 10 i ++ ".txt".toList)) →
      ¬ HasEntry w base "input".toList ("input".toList ++ Nat.toDigits 10 n ++ ".txt".toList) →
      EntriesOf env w base k
        (.subtask { id := 0, name := some "static-testcases".toList, maxScore := 100, isDefault := true
                    validator := v (some 0) } ::
         (List.range n).map (fun i => .testcase ⟨i, .staticFile (pathText (inDir base "input".toList
           ("input".toList ++ Nat.toDigits 10 i ++ ".txt".toList))), f i⟩))

/-- The subtasks and the testcases are those of the entries; a subtask has the testcases that are written under it or
under one of the subtasks it depends on. -/
structure LoadedFrom (es : List Format.Entry) (subtasks : AMap Nat Format.Subtask)
    (testcases : AMap Nat Format.Testcase) : Prop where
  subtask : ∀ s, .subtask s ∈ es → ∃ st, subtasks.get? s.id = some st ∧
    st.testcases.Pairwise (· < ·) ∧
    (∀ x, x ∈ st.testcases ↔ ∃ t, Format.DependsOn es s.id t ∧ Format.OwnedBy es t x) ∧
    st.owned.Pairwise (· < ·) ∧ (∀ x, x ∈ st.owned ↔ Format.OwnedBy es s.id x) ∧
    st = { s with testcases := st.testcases, owned := st.owned }
  noSubtask : ∀ k, (∀ s, .subtask s ∈ es → s.id ≠ k) → subtasks.get? k = none
  testcase : ∀ t, .testcase t ∈ es → testcases.get? t.id = some t
  noTestcase : ∀ k, (∀ t, .testcase t ∈ es → t.id ≠ k) → testcases.get? k = none

/-- How many subtasks there are. -/
def subtaskCount (es : List Format.Entry) : Nat :=
  (es.filter (fun e => match e with | .subtask _ => true | .testcase _ => false)).length

/-- The number with at least three digits. -/
def Padded (n : Nat) (t : Text) : Prop :=
  t.length = max 3 (Nat.toDigits 10 n).length ∧ ∃ z, t = List.replicate z '0' ++ Nat.toDigits 10 n

/-- `score_type_parameters`: the points and the testcases of the subtasks, in order. -/
def ParamsOf (subtasks : AMap Nat Format.Subtask) (ps : List (Rat × Text)) : Prop :=
  ∃ ids : List Nat, ids.Pairwise (· < ·) ∧ (∀ k, k ∈ ids ↔ ∃ s, subtasks.get? k = some s) ∧ ps.length = ids.length ∧
    ∀ (i k : Nat) (s : Format.Subtask), ids[i]? = some k → subtasks.get? k = some s → ∃ texts : List Text,
      ps[i]? = some (s.maxScore, List.intercalate ['|'] texts) ∧ texts.length = s.testcases.length ∧
      ∀ (j n : Nat), s.testcases[j]? = some n → ∃ t, texts[j]? = some t ∧ Padded n t

/-- The task that is loaded. -/
structure TaskOf (w : World) (base : RPath) (y : Yaml) (es : List Format.Entry) (t : Task) : Prop where
  dir : t.dir = base
  kind : KindOf w base y t.kind
  name : t.name = y.name
  title : t.title = y.title
  time : t.time = y.time
  memory : t.memory = y.memory
  infile : (y.infile = [] ∧ t.infile = none) ∨ (y.infile ≠ [] ∧ t.infile = some y.infile)
  outfile : (y.outfile = [] ∧ t.outfile = none) ∨ (y.outfile ≠ [] ∧ t.outfile = some y.outfile)
  aggregator : (y.scoreType = some t.aggregator) ∨ (y.scoreType = none ∧ subtaskCount es = 1 ∧ t.aggregator = .sum) ∨
    (y.scoreType = none ∧ subtaskCount es ≠ 1 ∧ t.aggregator = .min)
  precision : t.precision = y.precision
  loaded : LoadedFrom es t.subtasks t.testcases
  /-- The files called `grader` or `stub` of `sol/`; of those in the same language, one is enough. -/
  graders : ∀ p ∈ t.graders, ∃ n lang, p = inDir base "sol".toList n ∧ HasEntry w base "sol".toList n ∧
    Sanity.GraderIn lang n
  allGraders : ∀ n lang, HasEntry w base "sol".toList n → Sanity.GraderIn lang n →
    (∀ m, HasEntry w base "sol".toList m → Sanity.GraderIn lang m → m = n) → inDir base "sol".toList n ∈ t.graders
  difficulty : t.difficulty = y.difficulty
  syllabus : t.syllabus = y.syllabus
  validator : ValidatorOf w base t.validator

end TM.Parse
