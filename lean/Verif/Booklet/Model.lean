import Verif.Build.Model
import Verif.Booklet.Tex
import Verif.Sanity.Graders
/-!
# The executions that compile a booklet

Model of `task-maker-format/src/ioi/statement/{asy,statement,booklet}.rs`, the part that adds to the DAG.  Descriptions of
files and executions are left out.  The names of the tasks are not empty and not absolute paths.
-/
namespace TM.Booklet
open TM TM.Build TM.Text

/-- The file system.  `files d` are the paths, relative to `d`, of the files matched by `d/**/*`, in the order of `glob`
(directories and broken links are left out); `isFile` is `Path::is_file`; `real` is `Path::canonicalize`, `none` being an error;
`hash` is the key of a content; `dataDir` is `DATA_DIR`; `second` is one second in the unit of the limits. -/
structure World extends FS where
  files : String → List String
  isFile : String → Bool
  real : String → Option String
  hash : List Nat → FileStoreKey
  dataDir : String
  second : Int := 1000

/-! ## Paths -/

/-- `Path::file_name`: what is after the last slash. -/
def fileName (p : Text) : Text := (p.reverse.takeWhile (· ≠ '/')).reverse

/-- What is before the file name, with the last slash. -/
def dirPart (p : Text) : Text := (p.reverse.dropWhile (· ≠ '/')).reverse

/-- `Path::parent`: without the last slash. -/
def parentOf (p : String) : String := String.ofList (dirPart p.toList).dropLast

/-- `Path::extension`, empty if there is none. -/
def extOf (p : String) : Text := ((Sanity.splitDot (fileName p.toList)).2).getD []

/-- `Path::with_extension`. -/
def withExt (p : String) (ext : String) : String :=
  String.ofList (dirPart p.toList ++ (Sanity.splitDot (fileName p.toList)).1 ++ '.' :: ext.toList)

/-- `str::contains`. -/
def contains : Text → Text → Bool
  | [], p => p.isEmpty
  | c :: cs, p => p.isPrefixOf (c :: cs) || contains cs p

/-! ## Statements and booklets -/

/-- `Statement`, statement.rs:42-49: `dir` is the directory of its file. -/
structure Statement where
  heading : Heading
  dir : String
  content : Text

/-- The name of the task. -/
def Statement.name (s : Statement) : String := String.ofList s.heading.name

/-- `Booklet`, booklet.rs:45-54.  `logo` is that of the configuration (`info.logo` is what is printed for it). -/
structure Booklet where
  info : BookletInfo
  logo : Option String := none
  statements : List Statement
  dest : String

/-- booklet.rs:111-117. -/
def Booklet.name (b : Booklet) : String := String.ofList (fileName b.dest.toList)

/-- `Booklet::make_tex`. -/
def Booklet.tex (b : Booklet) : Text := bookletTex b.info (b.statements.map (fun s => (s.heading.name, s.content)))

/-- task-maker-format/src/ioi/dag/mod.rs:21. -/
def BOOKLET_PRIORITY : Priority := 10000

/-- The bytes of a text. -/
def bytesOf (t : Text) : List Nat := (t.flatMap String.utf8EncodeChar).map UInt8.toNat

/-- `provide_content` of a text. -/
def provideText (w : World) (f : FileUuid) (t : Text) : B Unit := provideContent f (w.hash (bytesOf t)) (bytesOf t)

/-- `write_file_to_allow_fail`, task-maker-dag/src/dag.rs:190-204. -/
def writeAllowFail (file : FileUuid) (dest : String) : B Unit :=
  upd (fun ev =>
    if ev.dag.config.dryRun then ev
    else { ev with writes := ev.writes.insert file ⟨dest, false, true⟩ })

/-- The logs of an execution, asy.rs:88-96 and booklet.rs:186-194. -/
def saveLogs (root kind name : String) (e : Execution) : B Execution := do
  let copy ← look (fun ev => ev.dag.config.copyLogs)
  if copy then
    let (f, e) ← stderrOf e
    writeAllowFail f (root ++ "/bin/logs/" ++ kind ++ "/" ++ name ++ ".stderr.log")
    let (g, e) ← stdoutOf e
    writeAllowFail g (root ++ "/bin/logs/" ++ kind ++ "/" ++ name ++ ".stdout.log")
    return e
  else return e

/-! ## Asymptote -/

/-- `AsyFile::find_asy_deps`, asy.rs:172-190. -/
def asyDeps (w : World) (src : String) : List DepSpec :=
  ((w.files (parentOf src)).filter (fun f => joinPath (parentOf src) f ≠ src)).map
    (fun f => ⟨joinPath (parentOf src) f, f, false⟩)

/-- The limits of asy, asy.rs:43-52. -/
def asyLimits (w : World) : ExecutionLimits :=
  { defaultLimits with
    readOnly := false
    wallTime := some (10 * w.second)
    stack := some (8192 * 1024)
    allowMultiprocess := true
    extraReadableDirs := ["/etc"]
    mountTmpfs := true
    mountProc := true }

/-- The limits of pdfcrop, asy.rs:120-126. -/
def cropLimits (w : World) : ExecutionLimits :=
  { defaultLimits with
    readOnly := false
    wallTime := some (10 * w.second)
    allowMultiprocess := true
    extraReadableDirs := ["/etc"]
    mountTmpfs := true }

/-- The compilation of the picture, asy.rs:26-116. -/
def asyCompile (w : World) (root booklet src : String) : B FileUuid := do
  let name := String.ofList (fileName src.toList)
  let source ← fresh
  let comp ← newExecution (.system "asy")
  let comp := { comp with
    args := ["-f", "pdf", "-localhistory", "tm-compilation.asy"]
    limits := asyLimits w
    tag := some "booklet" }
  let comp := addInput comp source "tm-compilation.asy" false
  provideFile w.toFS source src
  bindCallbacks comp.uuid (.bookletDependency booklet name 0)
  let comp ← eachWith (addDep w.toFS) (asyDeps w src) comp
  let (compiled, comp) ← outputOf comp "tm-compilation.pdf"
  let comp ← saveLogs root "asy" name comp
  let comp ← captureStderr comp 1024
  onExec comp.uuid (.failureDiagnostic (.bookletDependency booklet name 0))
  addExec comp
  return compiled

/-- Cropping the picture, asy.rs:118-167. -/
def asyCrop (w : World) (booklet src : String) (compiled : FileUuid) : B FileUuid := do
  let name := String.ofList (fileName src.toList)
  let crop ← newExecution (.system "pdfcrop")
  let crop := { crop with
    args := ["source.pdf"]
    limits := cropLimits w
    tag := some "booklet" }
  let crop := addInput crop compiled "source.pdf" false
  bindCallbacks crop.uuid (.bookletDependency booklet name 1)
  let (cropped, crop) ← outputOf crop "source-crop.pdf"
  let crop ← captureStderr crop 1024
  onExec crop.uuid (.failureDiagnostic (.bookletDependency booklet name 1))
  addExec crop
  return cropped

/-- `AsyFile::compile`, asy.rs:21-168. -/
def compileAsy (w : World) (root booklet src : String) : B FileUuid := do
  let compiled ← asyCompile w root booklet src
  asyCrop w booklet src compiled

/-! ## The files of a statement -/

/-- `Statement::is_valid_pdf_dependency`, statement.rs:229-244. -/
def validPdf (w : World) (path : String) : Option Bool :=
  (w.real path).map (fun p => !w.present (withExt p "asy") && !w.present (withExt p "tex"))

/-- `is_logo`, statement.rs:203-206; `logo` is the whole path of the configuration (statement.rs:94-98). -/
def isLogo (logo : Option String) (path : String) : Bool :=
  logo.any (fun l => fileName l.toList = fileName path.toList)

/-- A copy of a file among the dependencies, statement.rs:213-221 and 118-122. -/
def pushCopy (w : World) (deps : List (String × FileUuid)) (path sandbox : String) : B (List (String × FileUuid)) := do
  let f ← fresh
  provideFile w.toFS f path
  return deps ++ [(sandbox, f)]

/-- `Statement::process_possible_dependency`, statement.rs:176-224. -/
def processDep (w : World) (root booklet : String) (logo : Option String) (s : Statement)
    (deps : List (String × FileUuid)) (f : String) : B (List (String × FileUuid)) :=
  let path := joinPath s.dir f
  if extOf f = ['a', 's', 'y'] then
    if contains s.content (withExt f "pdf").toList then do
      let file ← compileAsy w root booklet path
      return deps ++ [(withExt f "pdf", file)]
    else return deps
  else if extOf f = ['p', 'd', 'f'] ∧ isLogo logo f = false then
    match validPdf w path with
    | none => fail (.missingFile path)
    | some true => pushCopy w deps path f
    | some false => return deps
  else pushCopy w deps path f

/-- The files of the generator given to LaTeX, statement.rs:113-117. -/
def genFiles : List String := ["limiti.py", "constraints.py", "GEN"]

/-- The body of the loop at statement.rs:113-124. -/
def genDep (w : World) (s : Statement) (deps : List (String × FileUuid)) (g : String) : B (List (String × FileUuid)) :=
  if w.isFile (s.dir ++ "/../gen/" ++ g) then pushCopy w deps (s.dir ++ "/../gen/" ++ g) g
  else return deps

/-- `Statement::build_deps`, statement.rs:86-127. -/
def buildDeps (w : World) (root booklet : String) (logo : Option String) (s : Statement) : B (List (String × FileUuid)) := do
  let deps ← eachWith (processDep w root booklet logo s) (w.files s.dir) []
  eachWith (genDep w s) genFiles deps

/-! ## The booklet -/

/-- The body of the loop over the statements, booklet.rs:143-155. -/
def addStatement (w : World) (root : String) (b : Booklet) (exec : Execution) (s : Statement) : B Execution := do
  let tex ← fresh
  let exec := addInput exec tex (s.name ++ "/statement.tex") false
  provideText w tex (statementTex s.heading s.content)
  let deps ← buildDeps w root b.name b.logo s
  return deps.foldl (fun e d => addInput e d.2 (s.name ++ "/" ++ d.1) false) exec

/-- The files of the template, booklet.rs:157-175. -/
def templates (w : World) : List DepSpec :=
  (w.files (w.dataDir ++ "/statements")).map (fun f => ⟨w.dataDir ++ "/statements/" ++ f, f, false⟩)

/-- The limits of latexmk, booklet.rs:129-133. -/
def latexLimits : ExecutionLimits :=
  { defaultLimits with
    readOnly := false
    allowMultiprocess := true
    extraReadableDirs := ["/etc"]
    mountTmpfs := true }

/-- `Booklet::build`, booklet.rs:110-209: the compilation; the result is the pdf. -/
def Booklet.compile (w : World) (root : String) (b : Booklet) : B FileUuid := do
  let exec ← newExecution (.system "latexmk")
  let exec := { exec with
    args := ["-shell-escape", "-f", "-interaction=nonstopmode", "-pdf", "booklet.tex"]
    limits := latexLimits
    tag := some "booklet"
    priority := BOOKLET_PRIORITY }
  let (output, exec) ← outputOf exec "booklet.pdf"
  let source ← fresh
  let exec := addInput exec source "booklet.tex" false
  provideText w source b.tex
  let exec ← eachWith (addStatement w root b) b.statements exec
  let exec ← eachWith (addDep w.toFS) (templates w) exec
  bindCallbacks exec.uuid (.booklet b.name)
  let exec ← saveLogs root "booklets" b.name exec
  let exec ← captureStdout exec (1024 * 1024 * 1024)
  onExec exec.uuid (.latexErrors b.name)
  addExec exec
  return output

/-- `Booklet::build`, booklet.rs:110-214: the pdf is written, also when LaTeX fails (booklet.rs:210-211). -/
def Booklet.build (w : World) (root : String) (b : Booklet) : B Unit := do
  let output ← Booklet.compile w root b
  writeAllowFail output b.dest

/-- The booklets of a task or of a contest, ioi/mod.rs:399-403 and src/tools/booklet.rs:73-75. -/
def buildBooklets (w : World) (root : String) (bs : List Booklet) : B Unit := each (Booklet.build w root) bs

/-- `IOITask::build_dag`, ioi/mod.rs:264-408, without the sanity checks. -/
def buildAll (w : World) (root : String) (task : Task) (sols : List Src) (bs : List Booklet) : B GeneratedIo := do
  let io ← buildDag w.toFS root task sols
  buildBooklets w root bs
  return io

end TM.Booklet
