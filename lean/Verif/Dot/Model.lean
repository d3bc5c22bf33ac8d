import Verif.Dag.Model
import Verif.Base.Sort
/-!
# The DAG in DOT format (`src/copy_dag.rs`, option `--copy-dag`)

The descriptions (`Names`) are functions of the uuid of a file and of the execution: the
copies of a `File` all carry the same description.  `idStr` is the hexadecimal form of a uuid.  The order in which
hash maps are visited is the order of the lists.
-/

namespace TM.Dot

/-- The texts that appear in the graph. -/
structure Names where
  fileDescr : FileUuid → List Char
  execDescr : Execution → List Char
  /-- `{:?}` of the command -/
  command : Execution → List Char
  args : Execution → List (List Char)
  idStr : Uuid → List Char

/-- src/copy_dag.rs:9-14 `Node`. -/
inductive Node where
  | exec (e : Execution)
  | file (f : FileUuid)
deriving DecidableEq

/-- src/copy_dag.rs:17 `Edge`. -/
abbrev Edge := Node × Node

/-- `[String]::join(" ")`. -/
def joinSpace : List (List Char) → List Char
  | [] => []
  | [a] => a
  | a :: b :: l => a ++ ' ' :: joinSpace (b :: l)

/-- src/copy_dag.rs:75-85 `node_label`. -/
def nodeLabel (n : Names) : Node → List Char
  | .exec e => n.execDescr e ++ " | ".toList ++ n.command e ++ ' ' :: joinSpace (n.args e)
  | .file f => n.fileDescr f

/-- src/copy_dag.rs:66-72 `node_id`. -/
def nodeId (n : Names) : Node → List Char
  | .exec e => "uuid".toList ++ n.idStr e.uuid
  | .file f => "uuid".toList ++ n.idStr f

/-- src/copy_dag.rs:34-46, the edges to the files written by an execution, in order. -/
def outEdges (e : Execution) : List Edge :=
  e.outputs.map (fun o => (.exec e, .file o.2)) ++ e.stdout.toList.map (fun f => (.exec e, .file f)) ++
    e.stderr.toList.map (fun f => (.exec e, .file f))

/-- src/copy_dag.rs:34-46, the files inserted in `files` for an execution. -/
def outFiles (files : List FileUuid) (e : Execution) : List FileUuid :=
  ((e.outputs.map (·.2)) ++ e.stdout.toList ++ e.stderr.toList).foldl setInsert files

/-- src/copy_dag.rs:24-30 the provided files. -/
def providedSet (dag : DagData) : List FileUuid :=
  dag.providedFiles.foldl (fun fs p => setInsert fs p.1) []

/-- All the executions, in the order they are visited. -/
def execsOf (dag : DagData) : List Execution :=
  dag.executionGroups.flatMap (fun g => g.2.executions)

/-- src/copy_dag.rs:49-58, the edges from the files an execution reads; `none` is the panic. -/
def depEdges (files : List FileUuid) (e : Execution) : List FileUuid → Option (List Edge)
  | [] => some []
  | d :: ds =>
    if d ∈ files then (depEdges files e ds).map ((.file d, .exec e) :: ·)
    else none

/-- src/copy_dag.rs:48-58. -/
def allDepEdges (files : List FileUuid) : List Execution → Option (List Edge)
  | [] => some []
  | e :: es =>
    match depEdges files e e.dependencies with
    | none => none
    | some l => (allDepEdges files es).map (l ++ ·)

/-- Comparison of strings. -/
def labelLe : List Char → List Char → Bool
  | [], _ => true
  | _ :: _, [] => false
  | a :: as, b :: bs => if a.val < b.val then true else if a = b then labelLe as bs else false

/-- src/copy_dag.rs:20-63 `render_dag` up to the text: `none` is the panic of line 53. -/
def graph (n : Names) (dag : DagData) : Option (List Node × List Edge) :=
  let es := execsOf dag
  let files := es.foldl outFiles (providedSet dag)
  match allDepEdges files es with
  | none => none
  | some deps =>
    some (isort (fun a b => labelLe (nodeLabel n a) (nodeLabel n b)) (es.map .exec ++ files.map .file),
      es.flatMap outEdges ++ deps)

/-- `str::replace(c, "\\c")` for one character. -/
def escapeChar (c : Char) (s : List Char) : List Char :=
  s.flatMap (fun x => if x = c then ['\\', c] else [x])

/-- src/copy_dag.rs:104-109 the replacements, in order. -/
def escape (s : List Char) : List Char :=
  escapeChar '>' (escapeChar '<' (escapeChar '}' (escapeChar '{' (escapeChar '"' s))))

/-- src/copy_dag.rs:96-99 the style of a node. -/
def style : Node → List Char
  | .exec _ => "style=rounded shape=record".toList
  | .file _ => "style=dashed shape=box".toList

/-- src/copy_dag.rs:100-111 the line of a node. -/
def nodeLine (n : Names) (x : Node) : List Char :=
  "    ".toList ++ nodeId n x ++ "[label=\"".toList ++ escape (nodeLabel n x) ++ "\"][".toList ++ style x ++ "];".toList

/-- src/copy_dag.rs:113-115 the line of an edge. -/
def edgeLine (n : Names) (x : Edge) : List Char :=
  "    ".toList ++ nodeId n x.1 ++ " -> ".toList ++ nodeId n x.2 ++ ";".toList

/-- src/copy_dag.rs:89-118 `render_graph`, as lines. -/
def renderLines (n : Names) (nodes : List Node) (edges : List Edge) : List (List Char) :=
  ["digraph taskmaker {".toList, "    rankdir=\"LR\";".toList] ++ nodes.map (nodeLine n) ++
    edges.map (edgeLine n) ++ ["}".toList]

end TM.Dot
