import Verif.Dot.Model
import Verif.CheckDag.Props
/-!
# C121, C122: the graph written by `--copy-dag`
-/

namespace TM.Dot
open TM.DagSpec

/-! ## Specification -/

/-- Reading a quoted string of the DOT language from after its opening quote: the text (with its other escapes)
and what follows the closing quote. -/
def readQuoted : List Char → Option (List Char × List Char)
  | [] => none
  | '"' :: cs => some ([], cs)
  | '\\' :: '"' :: cs => (readQuoted cs).map (fun r => ('"' :: r.1, r.2))
  | '\\' :: '\\' :: cs => (readQuoted cs).map (fun r => ('\\' :: '\\' :: r.1, r.2))
  | c :: cs => (readQuoted cs).map (fun r => (c :: r.1, r.2))

/-- The text shown for a label: a backslash gives the character after it. -/
def shown : List Char → List Char
  | [] => []
  | '\\' :: c :: cs => c :: shown cs
  | c :: cs => c :: shown cs

/-! ## Lemmas -/

theorem mem_foldl_setInsert (l : List FileUuid) : ∀ (s : List FileUuid) (f : FileUuid),
    f ∈ l.foldl setInsert s ↔ f ∈ l ∨ f ∈ s := by
  induction l with
  | nil => intro s f; simp
  | cons a l ih =>
    intro s f
    rw [List.foldl_cons, ih, mem_setInsert, List.mem_cons]
    constructor
    · rintro (h | h | h)
      · exact .inl (.inr h)
      · exact .inl (.inl h)
      · exact .inr h
    · rintro ((h | h) | h)
      · exact .inr (.inl h)
      · exact .inl h
      · exact .inr (.inr h)

theorem nodup_foldl_setInsert (l : List FileUuid) : ∀ (s : List FileUuid), s.Nodup →
    (l.foldl setInsert s).Nodup := by
  induction l with
  | nil => intro s h; exact h
  | cons a l ih => intro s h; exact ih _ (nodup_setInsert h a)

theorem mem_outFiles (s : List FileUuid) (e : Execution) (f : FileUuid) :
    f ∈ outFiles s e ↔ f ∈ e.outputFiles ∨ f ∈ s := by
  unfold outFiles Execution.outputFiles
  rw [mem_foldl_setInsert]
  simp only [List.mem_append]
  constructor
  · rintro (((h | h) | h) | h)
    · exact .inl (.inr (.inr h))
    · exact .inl (.inl h)
    · exact .inl (.inr (.inl h))
    · exact .inr h
  · rintro ((h | h | h) | h)
    · exact .inl (.inl (.inr h))
    · exact .inl (.inr h)
    · exact .inl (.inl (.inl h))
    · exact .inr h

theorem mem_files (es : List Execution) : ∀ (s : List FileUuid) (f : FileUuid),
    f ∈ es.foldl outFiles s ↔ (∃ e ∈ es, f ∈ e.outputFiles) ∨ f ∈ s := by
  induction es with
  | nil => intro s f; simp
  | cons e es ih =>
    intro s f
    rw [List.foldl_cons, ih, mem_outFiles]
    constructor
    · rintro (⟨e', h, h'⟩ | h | h)
      · exact .inl ⟨e', List.mem_cons_of_mem _ h, h'⟩
      · exact .inl ⟨e, by simp, h⟩
      · exact .inr h
    · rintro (⟨e', h, h'⟩ | h)
      · rcases List.mem_cons.mp h with rfl | h
        · exact .inr (.inl h')
        · exact .inl ⟨e', h, h'⟩
      · exact .inr (.inr h)

theorem nodup_files (es : List Execution) : ∀ (s : List FileUuid), s.Nodup → (es.foldl outFiles s).Nodup := by
  induction es with
  | nil => intro s h; exact h
  | cons e es ih => intro s h; exact ih _ (nodup_foldl_setInsert _ _ h)

theorem foldl_provided (l : AMap FileUuid ProvidedFile) (s : List FileUuid) :
    l.foldl (fun fs p => setInsert fs p.1) s = (l.map (·.1)).foldl setInsert s := by
  induction l generalizing s with
  | nil => rfl
  | cons p l ih => rw [List.foldl_cons, ih]; rfl

/-- The files of the graph. -/
def filesOf (dag : DagData) : List FileUuid := (execsOf dag).foldl outFiles (providedSet dag)

theorem mem_filesOf (dag : DagData) (f : FileUuid) : f ∈ filesOf dag ↔ f ∈ allFiles dag := by
  unfold filesOf
  rw [mem_files]
  unfold providedSet
  rw [foldl_provided, mem_foldl_setInsert]
  unfold allFiles execsOf AMap.keys ExecutionGroup.outs
  simp only [List.mem_append, List.mem_flatMap, List.not_mem_nil, or_false]
  constructor
  · rintro (⟨e, ⟨p, hp, he⟩, hf⟩ | h)
    · exact .inl ⟨p, hp, e, he, hf⟩
    · exact .inr h
  · rintro (⟨p, hp, e, he, hf⟩ | h)
    · exact .inl ⟨e, ⟨p, hp, he⟩, hf⟩
    · exact .inr h

theorem nodup_filesOf (dag : DagData) : (filesOf dag).Nodup := by
  apply nodup_files
  unfold providedSet
  rw [foldl_provided]
  exact nodup_foldl_setInsert _ _ List.nodup_nil

theorem depEdges_spec (files : List FileUuid) (e : Execution) (ds : List FileUuid) :
    depEdges files e ds =
      if ∀ d ∈ ds, d ∈ files then some (ds.map (fun d => (.file d, .exec e))) else none := by
  induction ds with
  | nil => simp [depEdges]
  | cons d ds ih =>
    unfold depEdges
    rw [ih]
    by_cases h : d ∈ files
    · by_cases h2 : ∀ d ∈ ds, d ∈ files
      · rw [if_pos h, if_pos h2, if_pos]
        · rfl
        · intro x hx
          rcases List.mem_cons.mp hx with rfl | hx
          · exact h
          · exact h2 x hx
      · rw [if_pos h, if_neg h2, if_neg]
        · rfl
        · exact fun h3 => h2 (fun x hx => h3 x (List.mem_cons_of_mem _ hx))
    · rw [if_neg h, if_neg]
      exact fun h3 => h (h3 d (by simp))

theorem allDepEdges_spec (files : List FileUuid) (es : List Execution) :
    allDepEdges files es =
      if ∀ e ∈ es, ∀ d ∈ e.dependencies, d ∈ files then
        some (es.flatMap (fun e => e.dependencies.map (fun d => (.file d, .exec e)))) else none := by
  induction es with
  | nil => simp [allDepEdges]
  | cons e es ih =>
    unfold allDepEdges
    rw [ih, depEdges_spec]
    by_cases h : ∀ d ∈ e.dependencies, d ∈ files
    · rw [if_pos h]
      by_cases h2 : ∀ e ∈ es, ∀ d ∈ e.dependencies, d ∈ files
      · rw [if_pos h2, if_pos]
        · rfl
        · intro x hx
          rcases List.mem_cons.mp hx with rfl | hx
          · exact h
          · exact h2 x hx
      · rw [if_neg h2, if_neg]
        · rfl
        · exact fun h3 => h2 (fun x hx => h3 x (List.mem_cons_of_mem _ hx))
    · rw [if_neg h]
      dsimp only
      rw [if_neg]
      exact fun (h3 : ∀ e' ∈ e :: es, ∀ d ∈ e'.dependencies, d ∈ files) => h (h3 e (by simp))

theorem execsOf_eq (dag : DagData) : execsOf dag = allExecs dag := rfl

theorem graph_spec (n : Names) (dag : DagData) :
    graph n dag =
      if ∀ e ∈ allExecs dag, ∀ d ∈ e.dependencies, d ∈ filesOf dag then
        some (isort (fun a b => labelLe (nodeLabel n a) (nodeLabel n b))
            ((allExecs dag).map .exec ++ (filesOf dag).map .file),
          (allExecs dag).flatMap outEdges ++
            (allExecs dag).flatMap (fun e => e.dependencies.map (fun d => (.file d, .exec e))))
      else none := by
  unfold graph
  simp only [execsOf_eq]
  have h0 : List.foldl outFiles (providedSet dag) (allExecs dag) = filesOf dag := rfl
  rw [h0, allDepEdges_spec]
  split
  · rename_i h
    split at h
    · exact absurd h (by simp)
    · rename_i h2
      rw [if_neg h2]
  · rename_i l h
    split at h
    · rename_i h2
      rw [if_pos h2]
      injection h with h
      rw [h]
    · exact absurd h (by simp)

/-! ## C121 -/

/-- **C121** `--copy-dag` fails only if an execution reads a file that is neither provided nor written
by an execution. -/
theorem graph_none_iff (n : Names) (dag : DagData) :
    graph n dag = none ↔ ∃ e ∈ allExecs dag, ∃ f ∈ e.dependencies, f ∉ allFiles dag := by
  rw [graph_spec]
  split
  · rename_i h
    simp only [reduceCtorEq, false_iff]
    rintro ⟨e, he, f, hf, hn⟩
    exact hn ((mem_filesOf dag f).mp (h e he f hf))
  · rename_i h
    simp only [true_iff]
    apply Classical.byContradiction
    intro h2
    apply h
    intro e he d hd
    apply Classical.byContradiction
    intro h3
    exact h2 ⟨e, he, d, hd, fun h4 => h3 ((mem_filesOf dag d).mpr h4)⟩

/-- **C121** it never fails on a DAG the server accepts. -/
theorem graph_of_accepted (n : Names) (dag : DagData) (cb : WatchSet) (hw : dag.Wf)
    (h : CheckDag.checkDag dag cb = .ok ()) : ∃ g, graph n dag = some g := by
  cases hg : graph n dag with
  | some g => exact ⟨g, rfl⟩
  | none =>
    obtain ⟨e, he, f, hf, hn⟩ := (graph_none_iff n dag).mp hg
    obtain ⟨_, hi, _⟩ := (CheckDag.checkDag_ok_iff dag cb hw).mp h
    unfold allExecs at he
    obtain ⟨p, hp, he⟩ := List.mem_flatMap.mp he
    refine absurd (hi p.1 p.2 hp f ?_) hn
    exact List.mem_flatMap.mpr ⟨e, he, hf⟩

/-- **C121** the nodes are all the executions and all the files (provided or written), each of them once. -/
theorem nodes_spec {n : Names} {dag : DagData} {nodes : List Node} {edges : List Edge}
    (h : graph n dag = some (nodes, edges)) :
    ∃ files : List FileUuid, files.Nodup ∧ (∀ f, f ∈ files ↔ f ∈ allFiles dag) ∧
      nodes.Perm ((allExecs dag).map .exec ++ files.map .file) := by
  rw [graph_spec] at h
  split at h
  · simp only [Option.some.injEq, Prod.mk.injEq] at h
    refine ⟨filesOf dag, nodup_filesOf dag, mem_filesOf dag, ?_⟩
    rw [← h.1]
    exact isort_perm _ _
  · exact absurd h (by simp)

/-- **C121** the arrows are those from an execution to each file it writes, and those from each file to the
executions that read it. -/
theorem edges_spec {n : Names} {dag : DagData} {nodes : List Node} {edges : List Edge}
    (h : graph n dag = some (nodes, edges)) (a b : Node) :
    (a, b) ∈ edges ↔ ∃ e ∈ allExecs dag, ∃ f,
      (f ∈ e.outputFiles ∧ a = .exec e ∧ b = .file f) ∨ (f ∈ e.dependencies ∧ a = .file f ∧ b = .exec e) := by
  rw [graph_spec] at h
  split at h
  · simp only [Option.some.injEq, Prod.mk.injEq] at h
    rw [← h.2]
    simp only [List.mem_append, List.mem_flatMap, outEdges, List.mem_map, Prod.mk.injEq,
      Execution.outputFiles]
    constructor
    · rintro (⟨e, he, (⟨o, ho, h1, h2⟩ | ⟨f, hf, h1, h2⟩) | ⟨f, hf, h1, h2⟩⟩ | ⟨e, he, f, hf, h1, h2⟩)
      · exact ⟨e, he, o.2, .inl ⟨.inr (.inr ⟨o, ho, rfl⟩), h1.symm, h2.symm⟩⟩
      · exact ⟨e, he, f, .inl ⟨.inl hf, h1.symm, h2.symm⟩⟩
      · exact ⟨e, he, f, .inl ⟨.inr (.inl hf), h1.symm, h2.symm⟩⟩
      · exact ⟨e, he, f, .inr ⟨hf, h1.symm, h2.symm⟩⟩
    · rintro ⟨e, he, f, ⟨hf | hf | ⟨o, ho, rfl⟩, rfl, rfl⟩ | ⟨hf, rfl, rfl⟩⟩
      · exact .inl ⟨e, he, .inl (.inr ⟨f, hf, rfl, rfl⟩)⟩
      · exact .inl ⟨e, he, .inr ⟨f, hf, rfl, rfl⟩⟩
      · exact .inl ⟨e, he, .inl (.inl ⟨o, ho, rfl, rfl⟩)⟩
      · exact .inr ⟨e, he, f, hf, rfl, rfl⟩
  · exact absurd h (by simp)

/-- **C121** an arrow joins two nodes of the graph. -/
theorem edges_closed {n : Names} {dag : DagData} {nodes : List Node} {edges : List Edge}
    (h : graph n dag = some (nodes, edges)) (a b : Node) (hab : (a, b) ∈ edges) :
    a ∈ nodes ∧ b ∈ nodes := by
  obtain ⟨files, _, hf, hp⟩ := nodes_spec h
  have hno : ¬ ∃ e ∈ allExecs dag, ∃ f ∈ e.dependencies, f ∉ allFiles dag := by
    intro hx
    rw [(graph_none_iff n dag).mpr hx] at h
    exact absurd h (by simp)
  have hexec : ∀ e ∈ allExecs dag, Node.exec e ∈ nodes := fun e he =>
    hp.mem_iff.mpr (List.mem_append_left _ (List.mem_map.mpr ⟨e, he, rfl⟩))
  have hfile : ∀ f ∈ allFiles dag, Node.file f ∈ nodes := fun f h1 =>
    hp.mem_iff.mpr (List.mem_append_right _ (List.mem_map.mpr ⟨f, (hf f).mpr h1, rfl⟩))
  obtain ⟨e, he, f, ⟨h1, rfl, rfl⟩ | ⟨h1, rfl, rfl⟩⟩ := (edges_spec h a b).mp hab
  · refine ⟨hexec e he, hfile f ?_⟩
    obtain ⟨p, hp, he⟩ := List.mem_flatMap.mp he
    exact List.mem_append_left _ (List.mem_flatMap.mpr ⟨p, hp, List.mem_flatMap.mpr ⟨e, he, h1⟩⟩)
  · refine ⟨hfile f ?_, hexec e he⟩
    apply Classical.byContradiction
    intro h2
    exact hno ⟨e, he, f, h1, h2⟩

theorem labelLe_total : ∀ a b, labelLe a b = true ∨ labelLe b a = true
  | [], _ => .inl rfl
  | _ :: _, [] => .inr rfl
  | x :: xs, y :: ys => by
    unfold labelLe
    rcases Nat.lt_trichotomy x.val.toNat y.val.toNat with h | h | h
    · left; rw [if_pos (UInt32.lt_iff_toNat_lt.mpr h)]
    · have e : x = y := Char.ext (UInt32.toNat_inj.mp h)
      subst e
      have hn : ¬ x.val < x.val := by simp
      simp only [hn, if_false, if_true]
      exact labelLe_total xs ys
    · right; rw [if_pos (UInt32.lt_iff_toNat_lt.mpr h)]

theorem labelLe_trans : ∀ a b c, labelLe a b = true → labelLe b c = true → labelLe a c = true
  | [], _, _, _, _ => rfl
  | _ :: _, [], _, h, _ => absurd h (by simp [labelLe])
  | _ :: _, _ :: _, [], _, h => absurd h (by simp [labelLe])
  | x :: xs, y :: ys, z :: zs, h1, h2 => by
    unfold labelLe at h1 h2 ⊢
    by_cases hxy : x.val < y.val
    · by_cases hyz : y.val < z.val
      · rw [if_pos (UInt32.lt_trans hxy hyz)]
      · rw [if_neg hyz] at h2
        by_cases e : y = z
        · subst e; rw [if_pos hxy]
        · rw [if_neg e] at h2; exact absurd h2 (by simp)
    · rw [if_neg hxy] at h1
      by_cases e : x = y
      · subst e
        rw [if_pos rfl] at h1
        by_cases hyz : x.val < z.val
        · rw [if_pos hyz]
        · rw [if_neg hyz] at h2 ⊢
          by_cases e : x = z
          · subst e
            rw [if_pos rfl] at h2 ⊢
            exact labelLe_trans xs ys zs h1 h2
          · rw [if_neg e] at h2; exact absurd h2 (by simp)
      · rw [if_neg e] at h1; exact absurd h1 (by simp)

/-- **C121** the nodes are listed in the order of their labels. -/
theorem nodes_sorted {n : Names} {dag : DagData} {nodes : List Node} {edges : List Edge}
    (h : graph n dag = some (nodes, edges)) :
    nodes.Pairwise (fun a b => labelLe (nodeLabel n a) (nodeLabel n b) = true) := by
  rw [graph_spec] at h
  split at h
  · simp only [Option.some.injEq, Prod.mk.injEq] at h
    rw [← h.1]
    exact isort_sorted' (le := fun a b => labelLe (nodeLabel n a) (nodeLabel n b))
      (fun a b => labelLe_total (nodeLabel n a) (nodeLabel n b))
      (fun a b c => labelLe_trans (nodeLabel n a) (nodeLabel n b) (nodeLabel n c)) _
  · exact absurd h (by simp)

/-! ## C122: the labels -/

/-- One pass. -/
def escapeOnce (s : List Char) : List Char :=
  s.flatMap (fun x => if x = '"' ∨ x = '{' ∨ x = '}' ∨ x = '<' ∨ x = '>' then ['\\', x] else [x])

theorem escapeChar_append (c : Char) (a b : List Char) : escapeChar c (a ++ b) = escapeChar c a ++ escapeChar c b := by
  simp [escapeChar]

theorem escape_append (a b : List Char) : escape (a ++ b) = escape a ++ escape b := by
  simp only [escape, escapeChar_append]

theorem escape_one (x : Char) : escape [x] =
    if x = '"' ∨ x = '{' ∨ x = '}' ∨ x = '<' ∨ x = '>' then ['\\', x] else [x] := by
  by_cases h1 : x = '"'
  · subst h1; decide
  by_cases h2 : x = '{'
  · subst h2; decide
  by_cases h3 : x = '}'
  · subst h3; decide
  by_cases h4 : x = '<'
  · subst h4; decide
  by_cases h5 : x = '>'
  · subst h5; decide
  simp [escape, escapeChar, h1, h2, h3, h4, h5]

theorem escape_cons (x : Char) (s : List Char) : escape (x :: s) = escape [x] ++ escape s :=
  escape_append [x] s

theorem readQuoted_plain {c : Char} (h1 : c ≠ '"') (h2 : c ≠ '\\') (cs : List Char) :
    readQuoted (c :: cs) = (readQuoted cs).map (fun r => (c :: r.1, r.2)) := by
  rw [readQuoted]
  · exact fun h => h1 h
  · intro cs' h _; exact h2 h
  · intro cs' h _; exact h2 h

theorem readQuoted_back {c : Char} (h1 : c ≠ '"') (h2 : c ≠ '\\') (cs : List Char) :
    readQuoted ('\\' :: c :: cs) = (readQuoted cs).map (fun r => ('\\' :: c :: r.1, r.2)) := by
  rw [readQuoted, readQuoted_plain h1 h2]
  · cases readQuoted cs <;> rfl
  · exact fun h => absurd h (by decide)
  · intro cs' _ h; injection h with h _; exact h1 h
  · intro cs' _ h; injection h with h _; exact h2 h

theorem shown_plain {c : Char} (h : c ≠ '\\') (cs : List Char) : shown (c :: cs) = c :: shown cs := by
  rw [shown]
  intro a b h1 _; exact h h1

/-- **C122** the label of a node is read back: when it has no backslash, the quoted string written in the graph ends
where it should, and shows exactly the label.  The command is written with its Rust quotes, so this includes the
quotes. -/
theorem label_roundtrip_partial (n : Names) (x : Node) (h : '\\' ∉ nodeLabel n x) :
    ∃ q t, nodeLine n x = "    ".toList ++ nodeId n x ++ "[label=".toList ++ '"' :: q ∧
      readQuoted q = some (t, "][".toList ++ style x ++ "];".toList) ∧ shown t = nodeLabel n x := by
  have key : ∀ (s rest : List Char), '\\' ∉ s →
      ∃ t, readQuoted (escape s ++ '"' :: rest) = some (t, rest) ∧ shown t = s := by
    intro s
    induction s with
    | nil => intro rest _; exact ⟨[], rfl, rfl⟩
    | cons c s ih =>
      intro rest hs
      obtain ⟨t, h1, h2⟩ := ih rest (fun h => hs (List.mem_cons_of_mem _ h))
      have hc : c ≠ '\\' := fun h => hs (by simp [h])
      rw [escape_cons, escape_one]
      by_cases hq : c = '"'
      · subst hq
        refine ⟨'"' :: t, ?_, by rw [shown_plain (by decide), h2]⟩
        simp only [true_or, if_true, List.cons_append, List.nil_append]
        rw [readQuoted, h1]
        rfl
      · by_cases hs : c = '{' ∨ c = '}' ∨ c = '<' ∨ c = '>'
        · refine ⟨'\\' :: c :: t, ?_, by rw [shown, h2]⟩
          simp only [hs, or_true, if_true, List.cons_append, List.nil_append]
          rw [readQuoted_back hq hc, h1]
          rfl
        · refine ⟨c :: t, ?_, by rw [shown_plain hc, h2]⟩
          simp only [hs, hq, or_false, if_false, List.cons_append, List.nil_append]
          rw [readQuoted_plain hq hc, h1]
          rfl
  obtain ⟨t, h1, h2⟩ := key (nodeLabel n x) ("][".toList ++ style x ++ "];".toList) h
  refine ⟨_, t, ?_, h1, h2⟩
  unfold nodeLine
  have e1 : ("[label=\"".toList : List Char) = "[label=".toList ++ ['"'] := rfl
  have e2 : ("\"][".toList : List Char) = '"' :: "][".toList := rfl
  rw [e1, e2]
  simp only [List.append_assoc, List.cons_append, List.nil_append]

/-- The names of a file whose description ends with a backslash. -/
def backslashNames : Names where
  fileDescr := fun _ => ['a', '\\']
  execDescr := fun _ => ['e']
  command := fun _ => ['c']
  args := fun _ => []
  idStr := fun _ => ['0']

/-- **C122** a label with a backslash breaks the graph: the string is not closed, or ends too early. -/
theorem label_backslash_breaks :
    ¬ ∀ (n : Names) (x : Node), ∃ q t,
      nodeLine n x = "    ".toList ++ nodeId n x ++ "[label=".toList ++ '"' :: q ∧
      readQuoted q = some (t, "][".toList ++ style x ++ "];".toList) ∧ shown t = nodeLabel n x := by
  intro h
  obtain ⟨q, t, h1, h2, _⟩ := h backslashNames (.file 0)
  have e : nodeLine backslashNames (.file 0) =
      "    ".toList ++ nodeId backslashNames (.file 0) ++ "[label=".toList ++
        '"' :: ['a', '\\', '"', ']', '[', 's', 't', 'y', 'l', 'e', '=', 'd', 'a', 's', 'h', 'e', 'd', ' ', 's', 'h',
          'a', 'p', 'e', '=', 'b', 'o', 'x', ']', ';'] := by decide
  rw [e] at h1
  have hq := List.append_cancel_left h1
  injection hq with _ hq
  rw [← hq] at h2
  have h3 : readQuoted ['a', '\\', '"', ']', '[', 's', 't', 'y', 'l', 'e', '=', 'd', 'a', 's', 'h', 'e', 'd', ' ', 's', 'h',
          'a', 'p', 'e', '=', 'b', 'o', 'x', ']', ';'] = none := by decide
  rw [h3] at h2
  exact absurd h2 (by simp)

/-! ## A graph: a compilation and a run of what it makes -/

def demoDag : DagData where
  providedFiles := [(1, { key := ⟨"k1"⟩ })]
  executionGroups :=
    [(100, { uuid := 100, executions := [{ uuid := 10, inputs := [("a.cpp", ⟨1, false⟩)], outputs := [("a", 2)] }] }),
     (101, { uuid := 101, executions := [{ uuid := 11, inputs := [("a", ⟨2, true⟩)], stdout := some 3 }] })]

def demoNames : Names where
  fileDescr := fun f => if f = 1 then "source".toList else if f = 2 then "exe".toList else "out <1>".toList
  execDescr := fun e => if e.uuid = 10 then "compile".toList else "run".toList
  command := fun _ => "System(\"g++\")".toList
  args := fun e => if e.uuid = 10 then ["-O2".toList, "a.cpp".toList] else []
  idStr := fun u => (toString u).toList

example : (graph demoNames demoDag).map (fun g => renderLines demoNames g.1 g.2) = some
    ["digraph taskmaker {".toList, "    rankdir=\"LR\";".toList,
     "    uuid10[label=\"compile | System(\\\"g++\\\") -O2 a.cpp\"][style=rounded shape=record];".toList,
     "    uuid2[label=\"exe\"][style=dashed shape=box];".toList,
     "    uuid3[label=\"out \\<1\\>\"][style=dashed shape=box];".toList,
     "    uuid11[label=\"run | System(\\\"g++\\\") \"][style=rounded shape=record];".toList,
     "    uuid1[label=\"source\"][style=dashed shape=box];".toList,
     "    uuid10 -> uuid2;".toList, "    uuid11 -> uuid3;".toList,
     "    uuid1 -> uuid10;".toList, "    uuid2 -> uuid11;".toList, "}".toList] := by decide +kernel

example : (CheckDag.checkDag demoDag {}).toOption = some () := by decide +kernel
example : '\\' ∉ nodeLabel demoNames (.file 3) := by decide +kernel

end TM.Dot
