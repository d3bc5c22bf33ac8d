import Verif.Find.Spec
import Verif.Format.PropsStatic
import Verif.Format.GenGen
import Verif.Format.Cases
import Verif.Format.Load

/-!
# Loading an IOI task

Model of `parse_task` (`task-maker-format/src/ioi/format/italian_yaml/mod.rs` lines 499-880) and of
`find_source_file` (`task-maker-format/src/lib.rs` lines 255-298).  The readers of the testcases are those of
`Verif.Format`, the files those of `Verif.Find`.

Simplifications: the text of a yaml file is turned into its keys and values by a parameter (`Env.yaml`), that
stands for the crate `serde_yaml`; numbers are exact instead of `f64`; the files written while loading
(`gen/GEN` and `task.yaml`) are the subject of `Verif.Clean` and `Verif.Format.WriteGen`, and the booklets
(the last step of `parse_task`) of `Verif.Find.Contest`.
-/
namespace TM.Parse
open TM AMap TM.Find

abbrev Text := TM.Text.Text

/-! ## Sources -/

/-- A path as a text. -/
def pathText (p : RPath) : Text :=
  (if p.abs then ['/'] else []) ++ List.intercalate ['/'] p.comps

/-- `SourceFile`, task-maker-lang/src/source_file.rs:23-44. -/
structure Src where
  path : RPath
  language : Sanity.Language
  /-- Whether it is compiled and run with the graders of the task. -/
  graders : Bool
  /-- `write_bin_to`. -/
  writeBin : Option RPath
  copyExe : Bool
  linkStatic : Bool
  deriving DecidableEq, Repr

/-- `WriteBinTo`, lib.rs:238-253; `None` is not used here. -/
inductive WriteBin where
  | withoutExtension
  | path (p : RPath)

/-- `path.with_extension("")`. -/
def withoutExtension (p : RPath) : RPath :=
  match p.fileName with
  | none => p
  | some n => ⟨p.abs, p.comps.dropLast ++ [(Sanity.splitDot n).1]⟩

/-- `LanguageManager::detect_language` on a path, task-maker-lang/src/lib.rs:105-121. -/
def languageOf (p : RPath) : Option Sanity.Language :=
  match p.fileName with
  | none => none
  | some n => Sanity.detectLanguage n

/-- Where the executable is written, lib.rs:279-283. -/
def binOf (base : RPath) (wb : WriteBin) (p : RPath) : RPath :=
  match wb with
  | .withoutExtension => withoutExtension p
  | .path q => base.join q

/-- The body of the loop of `find_source_file`, lib.rs:277-294 (with `SourceFile::new`,
source_file.rs:55-74). -/
def toSrc (w : World) (base : RPath) (graders : Bool) (wb : WriteBin) (p : RPath) : Option Src :=
  if w.exists p then
    match languageOf p with
    | none => none
    | some l => some
        { path := p
          language := l
          graders := graders
          writeBin := some (binOf base wb p)
          copyExe := false
          linkStatic := false }
  else none

/-- `find_source_file`, lib.rs:260-298; nothing is the panic of `list_files`. -/
def findSource (w : World) (base : RPath) (patterns : List RPath) (graders : Bool) (wb : WriteBin) :
    Option (List Src) :=
  (listFiles w base patterns).map (fun l => l.filterMap (toSrc w base graders wb))

/-! ## task.yaml -/

/-- The values of a yaml file. -/
inductive Val where
  | null
  | bool (b : Bool)
  | int (i : Int)
  | num (q : Rat)
  | str (t : Text)
  /-- A list of pairs of a number and a text. -/
  | pairs (l : List (Rat × Text))
  | other
  deriving DecidableEq

/-- A yaml mapping, in the order in which it is written. -/
abbrev Doc := List (Text × Val)

/-- `TestcaseScoreAggregator`, ioi/dag/mod.rs:27-40. -/
inductive Aggregator where
  | min
  | sum
  deriving DecidableEq, Repr

/-- `TaskYAML`, italian_yaml/mod.rs:336-394. -/
structure Yaml where
  name : Text
  title : Text
  scoreType : Option Aggregator
  params : Option (List (Rat × Text))
  precision : Nat
  language : Option Text
  time : Option Rat
  memory : Option Nat
  outputOnly : Bool
  infile : Text
  outfile : Text
  difficulty : Option Nat
  syllabus : Option Nat
  processes : Option Nat
  userIo : Option Text
  scoreMode : Option Text
  tokenMode : Option Text
  publicTestcases : Option Text
  feedbackLevel : Option Text
  deriving DecidableEq

/-- A `String`. -/
def asText : Val → Option Text
  | .str t => some t
  | _ => none

/-- An integer below a bound (`u8`, `u64`, `usize`). -/
def asNat (bound : Nat) : Val → Option Nat
  | .int i => if 0 ≤ i ∧ i < bound then some i.toNat else none
  | _ => none

/-- An `f64`. -/
def asNum : Val → Option Rat
  | .int i => some i
  | .num q => some q
  | _ => none

/-- A `bool`. -/
def asBool : Val → Option Bool
  | .bool b => some b
  | _ => none

/-- `TestcaseScoreAggregator` with its aliases, ioi/dag/mod.rs:27-40. -/
def asAggregator : Val → Option Aggregator
  | .str t =>
    if t = "min".toList ∨ t = "GroupMin".toList then some .min
    else if t = "sum".toList ∨ t = "Sum".toList then some .sum
    else none
  | _ => none

/-- `Vec<(f64, String)>`. -/
def asPairs : Val → Option (List (Rat × Text))
  | .pairs l => some l
  | _ => none

/-- What the derived `Deserialize` does with a field that is known by some names: it is an error to have two of
them. -/
def look (d : Doc) (names : List Text) : Option (Option Val) :=
  match d.filter (fun e => decide (e.1 ∈ names)) with
  | [] => some none
  | [e] => some (some e.2)
  | _ => none

/-- A field that has to be there. -/
def required {α : Type} (dec : Val → Option α) (d : Doc) (names : List Text) : Option α :=
  match look d names with
  | some (some v) => dec v
  | _ => none

/-- A field of type `Option`. -/
def optional {α : Type} (dec : Val → Option α) (d : Doc) (names : List Text) : Option (Option α) :=
  match look d names with
  | none => none
  | some none => some none
  | some (some v) => if v = .null then some none else (dec v).map some

/-- A field with a default value. -/
def withDefault {α : Type} (dec : Val → Option α) (dflt : α) (d : Doc) (names : List Text) : Option α :=
  match look d names with
  | none => none
  | some none => some dflt
  | some (some v) => dec v

/-- The deserialization of `TaskYAML`, italian_yaml/mod.rs:334-394 and 882-890. -/
def readYaml (d : Doc) : Option Yaml := do
  let name ← required asText d ["name".toList, "nome_breve".toList]
  let title ← required asText d ["title".toList, "nome".toList]
  let scoreType ← optional asAggregator d ["score_type".toList]
  let params ← optional asPairs d ["score_type_parameters".toList]
  let precision ← withDefault (asNat (2 ^ 64)) 0 d ["score_precision".toList]
  let language ← optional asText d ["primary_language".toList]
  let time ← optional asNum d ["time_limit".toList, "timeout".toList]
  let memory ← optional (asNat (2 ^ 64)) d ["memory_limit".toList, "memlimit".toList]
  let outputOnly ← withDefault asBool false d ["output_only".toList]
  let infile ← withDefault asText "input.txt".toList d ["infile".toList]
  let outfile ← withDefault asText "output.txt".toList d ["outfile".toList]
  let difficulty ← optional (asNat (2 ^ 8)) d ["difficulty".toList]
  let syllabus ← optional (asNat (2 ^ 8)) d ["syllabuslevel".toList]
  let processes ← optional (asNat (2 ^ 8)) d ["num_processes".toList]
  let userIo ← optional asText d ["user_io".toList]
  let scoreMode ← optional asText d ["score_mode".toList]
  let tokenMode ← optional asText d ["token_mode".toList]
  let publicTestcases ← optional asText d ["public_testcases".toList]
  let feedbackLevel ← optional asText d ["feedback_level".toList]
  some ⟨name, title, scoreType, params, precision, language, time, memory, outputOnly, infile, outfile,
    difficulty, syllabus, processes, userIo, scoreMode, tokenMode, publicTestcases, feedbackLevel⟩

/-- The deserialization of `TaskYAMLOrig`, italian_yaml/mod.rs:396-436, and `into_task_yaml`,
italian_yaml/mod.rs:438-462, without the name: the one of the file is read and dropped. -/
def readOrig (d : Doc) : Option (Text → Yaml) := do
  let _ ← withDefault asText [] d ["name".toList]
  let title ← required asText d ["title".toList]
  let scoreType ← optional asAggregator d ["score_type".toList]
  let precision ← withDefault (asNat (2 ^ 64)) 0 d ["score_precision".toList]
  let language ← optional asText d ["primary_language".toList]
  let time ← required asNum d ["time_limit".toList]
  let memory ← required (asNat (2 ^ 64)) d ["memory_limit".toList]
  let outputOnly ← withDefault asBool false d ["output_only".toList]
  let infile ← withDefault asText [] d ["infile".toList]
  let outfile ← withDefault asText [] d ["outfile".toList]
  let difficulty ← optional (asNat (2 ^ 8)) d ["difficulty".toList]
  let syllabus ← optional (asNat (2 ^ 8)) d ["syllabuslevel".toList]
  let processes ← optional (asNat (2 ^ 8)) d ["num_processes".toList]
  let userIo ← optional asText d ["user_io".toList]
  some (fun name => ⟨name, title, scoreType, none, precision, some (language.getD "en".toList), some time,
    some memory, outputOnly, infile, outfile, difficulty, syllabus, processes, userIo,
    some "max_subtask".toList, some "disabled".toList, some "all".toList, some "full".toList⟩)

/-- `cms_serialize_score_type`, italian_yaml/mod.rs:319-332. -/
def Aggregator.cms : Aggregator → Text
  | .sum => "Sum".toList
  | .min => "GroupMin".toList

/-- An `Option` in a yaml file. -/
def optVal {α : Type} (f : α → Val) : Option α → Val
  | none => .null
  | some a => f a

/-- The serialization of `TaskYAML`, italian_yaml/mod.rs:334-394 and 653. -/
def writeYaml (y : Yaml) : Doc :=
  [("name".toList, .str y.name), ("title".toList, .str y.title),
   ("score_type".toList, optVal (fun a => .str a.cms) y.scoreType)] ++
  (match y.params with
    | none => []
    | some l => [("score_type_parameters".toList, .pairs l)]) ++
  [("score_precision".toList, .int y.precision), ("primary_language".toList, optVal .str y.language),
   ("time_limit".toList, optVal .num y.time), ("memory_limit".toList, optVal (fun n => .int (n : Nat)) y.memory),
   ("output_only".toList, .bool y.outputOnly), ("infile".toList, .str y.infile), ("outfile".toList, .str y.outfile),
   ("difficulty".toList, optVal (fun n => .int (n : Nat)) y.difficulty),
   ("syllabuslevel".toList, optVal (fun n => .int (n : Nat)) y.syllabus),
   ("num_processes".toList, optVal (fun n => .int (n : Nat)) y.processes),
   ("user_io".toList, optVal .str y.userIo), ("score_mode".toList, optVal .str y.scoreMode),
   ("token_mode".toList, optVal .str y.tokenMode), ("public_testcases".toList, optVal .str y.publicTestcases),
   ("feedback_level".toList, optVal .str y.feedbackLevel)]

/-! ## The parts of the task -/

/-- Why a task is not loaded. -/
inductive Err where
  /-- An `unwrap` or an `expect` fails. -/
  | panic
  | noYaml
  | badYaml
  | multipleManagers
  | badUserIo
  | multipleCheckers
  | multipleSolutions
  | multipleValidators
  | unreadable
  | cases (e : Format.CasesErr)
  | gen (e : Format.GenErr)
  | load (e : Format.LoadErr)
  /-- The bound on the rounds is too small (see `Verif.Format.Load`). -/
  | unfinished
  deriving DecidableEq

/-- The source, if there is exactly one: e.g. italian_yaml/mod.rs:738-743. -/
def only (e : Err) : Option (List Src) → Except Err (Option Src)
  | none => .error .panic
  | some [] => .ok none
  | some [s] => .ok (some s)
  | some (_ :: _ :: _) => .error e

/-- A pattern with two components. -/
def pat (dir name : String) : RPath := ⟨false, [dir.toList, name.toList]⟩

/-- The search of `detect_validator`, italian_yaml/mod.rs:725-742. -/
def validatorSource (w : World) (base : RPath) : Except Err (Option Src) :=
  only .multipleValidators (findSource w base
    [pat "gen" "validator.*", pat "gen" "valida.*", pat "gen" "validator", pat "gen" "valida"]
    false (.path (pat "bin" "validator")))

/-- The function returned by `detect_validator`, italian_yaml/mod.rs:744-757. -/
def validatorFor (v : Option Src) (st : Option Nat) : Format.Validator :=
  match v with
  | none => .assumeValid
  | some s => .custom (pathText s.path)
      [Format.validationFile, Format.natText ((st.map (fun x => x + 1)).getD 0)]

/-- The search of `detect_output_generator`, italian_yaml/mod.rs:767-787. -/
def officialSource (w : World) (base : RPath) : Except Err (Option Src) :=
  only .multipleSolutions (findSource w base
    [pat "sol" "solution.*", pat "sol" "soluzione.*", pat "sol" "solution", pat "sol" "soluzione"]
    true (.path (pat "bin" "official_solution")))

/-- The function returned by `detect_output_generator`, italian_yaml/mod.rs:788-796. -/
def outputFor (base : RPath) (s : Option Src) (tc : Nat) : Format.OutputGen :=
  match s with
  | some s => .custom (pathText s.path)
  | none => .staticFile (pathText ((base.push "output".toList).push
      ("output".toList ++ Format.natText tc ++ ".txt".toList)))

/-- `Checker`. -/
inductive Checker where
  | whiteDiff
  | custom (s : Src)
  deriving DecidableEq, Repr

/-- `UserIo`. -/
inductive UserIo where
  | stdIo
  | fifoIo
  deriving DecidableEq, Repr

/-- `TaskType` with `BatchTypeData` and `CommunicationTypeData`. -/
inductive Kind where
  | batch (official : Option Src) (checker : Checker)
  | communication (manager : Src) (processes : Nat) (io : UserIo)
  deriving DecidableEq, Repr

/-- `copy_exe` and `link_static`, source_file.rs:191-201 (not on MacOS). -/
def Src.shipped (s : Src) : Src := { s with copyExe := true, linkStatic := true }

/-- `parse_batch_task_data`, italian_yaml/mod.rs:800-836. -/
def parseBatch (w : World) (base : RPath) : Except Err Kind :=
  match only .multipleCheckers (findSource w base [pat "check" "checker.*", pat "cor" "correttore.*"]
      false .withoutExtension) with
  | .error e => .error e
  | .ok c =>
    match officialSource w base with
    | .error e => .error e
    | .ok s => .ok (.batch s (match c with | none => .whiteDiff | some c => .custom c.shipped))

/-- The value of `user_io`, italian_yaml/mod.rs:866-871. -/
def parseUserIo : Option Text → Except Err UserIo
  | none => .ok .fifoIo
  | some t =>
    if t = "std_io".toList then .ok .stdIo
    else if t = "fifo_io".toList then .ok .fifoIo
    else .error .badUserIo

/-- `parse_communication_task_data`, italian_yaml/mod.rs:839-879. -/
def parseCommunication (w : World) (base : RPath) (y : Yaml) : Except Err (Option Kind) :=
  match only .multipleManagers (findSource w base [pat "check" "manager.*", pat "cor" "manager.*"]
      false .withoutExtension) with
  | .error e => .error e
  | .ok none => .ok none
  | .ok (some m) =>
    match parseUserIo y.userIo with
    | .error e => .error e
    | .ok io => .ok (some (.communication m.shipped (y.processes.getD 1) io))

/-- The kind of the task, italian_yaml/mod.rs:543-547. -/
def parseKind (w : World) (base : RPath) (y : Yaml) : Except Err Kind :=
  match parseCommunication w base y with
  | .error e => .error e
  | .ok (some k) => .ok k
  | .ok none => parseBatch w base

/-- `output_generator`, italian_yaml/mod.rs:551-559. -/
def Kind.outputs (base : RPath) : Kind → Nat → Format.OutputGen
  | .batch official _, tc => outputFor base official tc
  | .communication _ _ _, _ => .notAvailable

/-! ## The testcases -/

/-- What is outside of the directory of the task. -/
structure Env where
  /-- `serde_yaml`. -/
  yaml : Text → Option Doc
  /-- `shell_words::split`. -/
  split : Text → Option (List Text)
  /-- `str::nfkc`. -/
  nfkc : Text → Text
  /-- Whether the character may be in the name of a subtask. -/
  okCategory : Char → Bool
  /-- `char::is_whitespace`. -/
  isSpace : Char → Bool

/-- A file of the task. -/
def taskFile (base : RPath) (dir name : String) : RPath := (base.push dir.toList).push name.toList

/-- What `cases.gen` is read with, italian_yaml/mod.rs:563 and cases_gen.rs:135-169. -/
def casesEnv (env : Env) (w : World) (base : RPath) (k : Kind) : Format.CasesEnv where
  outputGen := k.outputs base
  join t := pathText (base.join (RPath.ofText t))
  pathExists t := w.exists (RPath.ofText t)
  source t := if (languageOf (RPath.ofText t)).isSome then some t else none
  split := env.split

/-- What `gen/GEN` is read with, italian_yaml/mod.rs:570-574 and gen_gen.rs:28-82. -/
def genEnv (env : Env) (base : RPath) (k : Kind) (v : Option Src) (generators : List Src) :
    Format.GenEnv where
  validator st := validatorFor v (some st)
  outputGen := k.outputs base
  generators := generators.map (fun s => pathText s.path)
  join t := pathText (base.join (RPath.ofText t))
  nfkc := env.nfkc
  okCategory := env.okCategory
  isSpace := env.isSpace

/-- The search of the generator, gen_gen.rs:62-74. -/
def generatorSources (w : World) (base : RPath) : Option (List Src) :=
  findSource w base
    [pat "gen" "generator.*", pat "gen" "generatore.*", pat "gen" "generator", pat "gen" "generatore"]
    false (.path (pat "bin" "generator"))

/-- What the files of `input/` are read with, italian_yaml/mod.rs:577-582. -/
def staticEnv (w : World) (base : RPath) (k : Kind) (v : Option Src) : Format.StaticEnv where
  inputPath n := pathText ((base.push "input".toList).push n)
  pathExists t := w.exists (RPath.ofText t)
  validator st := validatorFor v (some st)
  outputGen := k.outputs base

/-- The subtasks and the testcases, italian_yaml/mod.rs:561-583.  The iterator of the static inputs cannot
give more testcases than there are files. -/
def readEntries (env : Env) (w : World) (base : RPath) (k : Kind) : Except Err (List Format.Entry) :=
  if w.exists (taskFile base "gen" "cases.gen") then
    match w.read (taskFile base "gen" "cases.gen") with
    | none => .error .unreadable
    | some content =>
      match Format.parseCasesGen (casesEnv env w base k) content with
      | .error e => .error (.cases e)
      | .ok es => .ok es
  else if w.exists (taskFile base "gen" "GEN") then
    match validatorSource w base with
    | .error e => .error e
    | .ok v =>
      match w.read (taskFile base "gen" "GEN") with
      | none => .error .unreadable
      | some content =>
        match generatorSources w base with
        | none => .error .panic
        | some gs =>
          match Format.parseGenGen (genEnv env base k v gs) content with
          | .error e => .error (.gen e)
          | .ok es => .ok es
  else
    match validatorSource w base with
    | .error e => .error e
    | .ok v => .ok (Format.staticTake (staticEnv w base k v) (w.fs.length + 2) 0).1

/-! ## The task -/

/-- `IOITask`, ioi/mod.rs:107-153, without the sanity checks and the booklets. -/
structure Task where
  dir : RPath
  kind : Kind
  name : Text
  title : Text
  time : Option Rat
  memory : Option Nat
  infile : Option Text
  outfile : Option Text
  aggregator : Aggregator
  precision : Nat
  subtasks : AMap Nat Format.Subtask
  testcases : AMap Nat Format.Testcase
  graders : List RPath
  difficulty : Option Nat
  syllabus : Option Nat
  /-- `input_validator_generator` -/
  validator : Option Nat → Format.Validator

/-- `map_file`, italian_yaml/mod.rs:530-535. -/
def mapFile (t : Text) : Option Text := if t = [] then none else some t

/-- The aggregator, italian_yaml/mod.rs:627-631. -/
def aggregatorOf (y : Yaml) (subtasks : Nat) : Aggregator :=
  y.scoreType.getD (if subtasks = 1 then .sum else .min)

/-- Everything after `task.yaml` is read, italian_yaml/mod.rs:530-700; `order` and `rounds` are about the loop
on the dependencies (`Verif.Format.Load`). -/
def parseWith (env : Env) (w : World) (base : RPath) (order : Nat → List Nat) (rounds : Nat)
    (y : Yaml) (orig : Bool) : Except Err Task :=
  match parseKind w base y with
  | .error e => .error e
  | .ok k =>
    match readEntries env w base k with
    | .error e => .error e
    | .ok es =>
      match Format.load orig order rounds es with
      | none => .error .unfinished
      | some (.error e) => .error (.load e)
      | some (.ok l) =>
        match validatorSource w base with
        | .error e => .error e
        | .ok v => .ok
          { dir := base
            kind := k
            name := y.name
            title := y.title
            time := y.time
            memory := y.memory
            infile := mapFile y.infile
            outfile := mapFile y.outfile
            aggregator := aggregatorOf y l.subtasks.length
            precision := y.precision
            subtasks := l.subtasks
            testcases := l.testcases
            graders := taskGraders w base
            difficulty := y.difficulty
            syllabus := y.syllabus
            validator := validatorFor v }

/-- The part that reads `task.yaml.orig` or `task.yaml`, italian_yaml/mod.rs:505-527: with whether there is a
`task.yaml.orig`. -/
def readTaskYaml (env : Env) (w : World) (base : RPath) : Except Err (Yaml × Bool) :=
  if w.exists (base.push "task.yaml.orig".toList) then
    match (w.read (base.push "task.yaml.orig".toList)).bind env.yaml with
    | none => .error .badYaml
    | some d =>
      match readOrig d with
      | none => .error .badYaml
      | some mk =>
        match base.fileName with
        | none => .error .panic
        | some n => .ok (mk n, true)
  else if w.exists (base.push "task.yaml".toList) then
    match (w.read (base.push "task.yaml".toList)).bind env.yaml with
    | none => .error .badYaml
    | some d =>
      match readYaml d with
      | none => .error .badYaml
      | some y => .ok (y, false)
  else .error .noYaml

/-- `parse_task`, italian_yaml/mod.rs:499-700. -/
def parseTask (env : Env) (w : World) (base : RPath) (order : Nat → List Nat) (rounds : Nat) :
    Except Err Task :=
  match readTaskYaml env w base with
  | .error e => .error e
  | .ok (y, orig) => parseWith env w base order rounds y orig

/-- `format!("{tc_num:03}")`, italian_yaml/mod.rs:645. -/
def pad3 (n : Nat) : Text :=
  let d := Format.natText n
  List.replicate (3 - d.length) '0' ++ d

/-- `score_type_parameters`, italian_yaml/mod.rs:636-650: the subtasks sorted by their number. -/
def scoreParams (subtasks : AMap Nat Format.Subtask) : List (Rat × Text) :=
  (isort (fun a b => decide (a.1 ≤ b.1)) subtasks).map
    (fun e => (e.2.maxScore, List.intercalate ['|'] (e.2.testcases.map pad3)))

/-- The `task.yaml` that is written, italian_yaml/mod.rs:632, 636-653. -/
def madeYaml (y : Yaml) (t : Task) : Doc :=
  writeYaml { y with scoreType := some t.aggregator, params := some (scoreParams t.subtasks) }

end TM.Parse
