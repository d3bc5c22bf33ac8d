import Verif.Booklet.Model
import Verif.Build.Spec
/-!
# What has to be compiled for a booklet (C100)
-/
namespace TM.Booklet.Spec
open TM TM.Build TM.Text DagSpec Build.Spec

/-- Where a file of the sandbox comes from: a text made by task-maker, a copy of a file, the picture made from a source of
Asymptote. -/
inductive Origin where
  | text (t : Text)
  | copy (path : String)
  | picture (src : String)
deriving DecidableEq

/-- A pdf that another program makes from its source, found through the links. -/
def HasSource (w : World) (path : String) : Prop :=
  ∃ p, w.real path = some p ∧ (w.present (withExt p "asy") = true ∨ w.present (withExt p "tex") = true)

/-- The files a statement needs, with their path in its directory. -/
inductive Needed (w : World) (logo : Option String) (s : Statement) : String → Origin → Prop where
  /-- the pictures the statement mentions -/
  | picture {f : String} (h : f ∈ w.files s.dir) (he : extOf f = "asy".toList)
      (hm : ∃ x y, s.content = x ++ (withExt f "pdf").toList ++ y) :
      Needed w logo s (withExt f "pdf") (.picture (joinPath s.dir f))
  /-- the other files of its directory, without the pdf files that are made from a source (unless one is the logo) -/
  | file {f : String} (h : f ∈ w.files s.dir) (he : extOf f ≠ "asy".toList)
      (hp : extOf f = "pdf".toList → (∃ l, logo = some l ∧ fileName l.toList = fileName f.toList) ∨
        ¬ HasSource w (joinPath s.dir f)) :
      Needed w logo s f (.copy (joinPath s.dir f))
  /-- the constants of the generator -/
  | gen {g : String} (h : g ∈ ["limiti.py", "constraints.py", "GEN"]) (hf : w.isFile (s.dir ++ "/../gen/" ++ g) = true) :
      Needed w logo s g (.copy (s.dir ++ "/../gen/" ++ g))

/-- The files of the sandbox of LaTeX. -/
inductive Entry (w : World) (b : Booklet) : String → Origin → Prop where
  | booklet : Entry w b "booklet.tex" (.text b.tex)
  | statement {s : Statement} (h : s ∈ b.statements) :
      Entry w b (s.name ++ "/statement.tex") (.text (statementTex s.heading s.content))
  | needed {s : Statement} (h : s ∈ b.statements) {f : String} {o : Origin} (hn : Needed w b.logo s f o) :
      Entry w b (s.name ++ "/" ++ f) o
  | template {f : String} (h : f ∈ w.files (w.dataDir ++ "/statements")) :
      Entry w b f (.copy (w.dataDir ++ "/statements/" ++ f))

/-- The files of the sandbox of Asymptote: the source and everything in its directory. -/
inductive AsyEntry (w : World) (src : String) : String → String → Prop where
  | source : AsyEntry w src "tm-compilation.asy" src
  | sibling {f : String} (h : f ∈ w.files (parentOf src)) (hne : joinPath (parentOf src) f ≠ src) :
      AsyEntry w src f (joinPath (parentOf src) f)

/-- The inputs of `e` are the entries: every input is one of them and every entry has its path in the sandbox. -/
def InputsAre (P : FileUuid → α → Prop) (E : String → α → Prop) (e : Execution) : Prop :=
  (∀ p i, e.inputs.get? p = some i → i.executable = false ∧ ∃ o, E p o ∧ P i.file o) ∧
  ∀ p o, E p o → ∃ i, e.inputs.get? p = some i

/-- The file is written at the end, unless it is a dry run; it may be missing. -/
def MayBeWritten (ev : Eval) (f : FileUuid) (dest : String) : Prop :=
  ev.dag.config.dryRun = false → ev.writes.get? f = some ⟨dest, false, true⟩

/-- When asked, what the execution prints is written in `bin/logs`. -/
def Logged (ev : Eval) (root kind name : String) (e : Execution) : Prop :=
  ev.dag.config.copyLogs = true →
    ∃ f g, e.stderr = some f ∧ e.stdout = some g ∧
      MayBeWritten ev f (root ++ "/bin/logs/" ++ kind ++ "/" ++ name ++ ".stderr.log") ∧
      MayBeWritten ev g (root ++ "/bin/logs/" ++ kind ++ "/" ++ name ++ ".stdout.log")

/-- Asymptote compiles the source. -/
def Draws (w : World) (root : String) (ev : Eval) (booklet src : String) (out : FileUuid) (e : Execution) : Prop :=
  e ∈ allExecs ev.dag ∧ e.command = .system "asy" ∧
  e.args = ["-f", "pdf", "-localhistory", "tm-compilation.asy"] ∧
  InputsAre (CopyOf w.toFS ev) (AsyEntry w src) e ∧ e.outputs = [("tm-compilation.pdf", out)] ∧ e.stdin = none ∧
  e.limits.readOnly = false ∧ e.limits.wallTime = some (10 * w.second) ∧ e.limits.cpuTime = none ∧
  e.tag = some "booklet" ∧ e.captureStderr = some 1024 ∧
  Reports ev e.uuid (.bookletDependency booklet (String.ofList (fileName src.toList)) 0) ∧
  ErrorShown ev e.uuid (.bookletDependency booklet (String.ofList (fileName src.toList)) 0) ∧
  Logged ev root "asy" (String.ofList (fileName src.toList)) e

/-- The white borders are removed. -/
def Crops (w : World) (ev : Eval) (booklet src : String) (inp out : FileUuid) (e : Execution) : Prop :=
  e ∈ allExecs ev.dag ∧ e.command = .system "pdfcrop" ∧ e.args = ["source.pdf"] ∧
  e.inputs = [("source.pdf", ⟨inp, false⟩)] ∧ e.outputs = [("source-crop.pdf", out)] ∧ e.stdin = none ∧
  e.limits.readOnly = false ∧ e.limits.wallTime = some (10 * w.second) ∧ e.limits.cpuTime = none ∧
  e.tag = some "booklet" ∧ e.captureStderr = some 1024 ∧
  Reports ev e.uuid (.bookletDependency booklet (String.ofList (fileName src.toList)) 1) ∧
  ErrorShown ev e.uuid (.bookletDependency booklet (String.ofList (fileName src.toList)) 1)

/-- What the file `f` of the DAG is. -/
def Holds (w : World) (root : String) (ev : Eval) (booklet : String) (f : FileUuid) : Origin → Prop
  | .text t => ev.dag.providedFiles.get? f = some ⟨w.hash (bytesOf t), some (bytesOf t), none⟩
  | .copy path => CopyOf w.toFS ev f path
  | .picture src => ∃ g comp crop, Draws w root ev booklet src g comp ∧ Crops w ev booklet src g f crop

/-- LaTeX compiles the booklet, that is written to its destination. -/
def Compiles (w : World) (root : String) (ev : Eval) (b : Booklet) (e : Execution) : Prop :=
  e ∈ allExecs ev.dag ∧ e.command = .system "latexmk" ∧
  e.args = ["-shell-escape", "-f", "-interaction=nonstopmode", "-pdf", "booklet.tex"] ∧
  InputsAre (Holds w root ev b.name) (Entry w b) e ∧
  (∃ f, e.outputs = [("booklet.pdf", f)] ∧ MayBeWritten ev f b.dest) ∧ e.stdin = none ∧
  e.limits.readOnly = false ∧ e.limits.wallTime = none ∧ e.limits.cpuTime = none ∧ e.limits.memory = none ∧
  e.tag = some "booklet" ∧ e.priority = 10000 ∧ e.captureStdout = some (1024 * 1024 * 1024) ∧
  Reports ev e.uuid (.booklet b.name) ∧ (e.uuid, .latexErrors b.name) ∈ ev.handlers ∧
  Logged ev root "booklets" b.name e

/-! ## What the UI is told -/

/-- The pictures a statement mentions, in the order of the directory. -/
def pictures (w : World) (s : Statement) : List String :=
  (w.files s.dir).filter (fun f => extOf f = "asy".toList ∧ (withExt f "pdf").toList <:+: s.content)

/-- The executions of a booklet: two for each picture, then LaTeX. -/
def bookletMessages (w : World) (b : Booklet) : List Topic :=
  b.statements.flatMap (fun s => (pictures w s).flatMap (fun f =>
    [.bookletDependency b.name (String.ofList (fileName (joinPath s.dir f).toList)) 0,
     .bookletDependency b.name (String.ofList (fileName (joinPath s.dir f).toList)) 1])) ++ [.booklet b.name]

/-- The booklets can be added to an empty DAG (`task-maker-tools booklet`) or to the DAG of a task. -/
inductive Before (w : World) (root : String) : Eval → Prop where
  | empty (n : Uuid) (cfg : DagConfig) : Before w root (start n cfg)
  | task {n : Uuid} {cfg : DagConfig} {task : Task} {sols : List Src} {io : GeneratedIo} {ev : Eval} (h : Fits n task sols)
      (hr : buildDag w.toFS root task sols (start n cfg) = .ok (io, ev)) : Before w root ev

end TM.Booklet.Spec
