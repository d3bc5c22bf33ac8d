import Verif.Lang.Known
import Verif.Build.Props
/-!
# C123, C124: how programs of the known languages are run and compiled

`Build` proves that every generator, validator, solution, checker of a task is run by an execution as
`Runs` says, for any language; here are the real languages.
-/

namespace TM.Known
open TM TM.Build TM.Build.Spec

/-! ## Specification -/

/-- The process of the execution `e` is the program `exe` of the sandbox with the arguments `argv`: either the program is
started directly, or an interpreter of the machine is started on it. -/
inductive Starts (e : Execution) (exe : String) (argv : List String) : Prop
  | direct : e.command = .localCmd exe → e.args = argv → Starts e exe argv
  | interpreted (i : String) : e.command = .system i → e.args = exe :: argv → Starts e exe argv

/-- The compiler of the language is told to write the binary in `bin`. -/
def MakesBinary (k : Kind) (args : List String) (bin : String) : Prop :=
  match k with
  | .c | .cpp | .rust => ∃ pre post, args = pre ++ "-o" :: bin :: post
  | .pascal => ("-o" ++ bin) ∈ args
  | .csharp => ("-out:" ++ bin) ∈ args
  | _ => False

/-- The compiler is told to define `EVAL`. -/
def DefinesEval (k : Kind) (args : List String) : Prop :=
  match k with
  | .c | .cpp => "-DEVAL" ∈ args
  | .rust => ∃ pre post, args = pre ++ "--cfg" :: "EVAL" :: post
  | .pascal => "-dEVAL" ∈ args
  | .csharp => "-define:EVAL" ∈ args
  | _ => False

/-- An argument that a compiler does not take for an option. -/
def NotOption (a : String) : Prop := a.toList.head? ≠ some '-'

/-! ## C123 -/

section Run
variable {fs : FS} {ev : Eval} {s : Src} {args over : List String} {e : Execution} {m : Machine}
  {cc cxx : CConfig} {k : Kind} {src : Source}

theorem line_eq (h : Runs fs ev s args over e) (hs : s.lang = lang m cc cxx k src) :
    e.args = runArgs k src args := by
  rw [h.line, hs]
  cases runWith s <;> rfl

/-- **C123** a program in C, C++, Python, shell, Pascal or Rust is started with exactly the arguments it is run with, in
order. -/
theorem starts_partial (h : Runs fs ev s args over e) (hs : s.lang = lang m cc cxx k src)
    (h1 : k ≠ .csharp) (h2 : k ≠ .js) : Starts e (exeName k src) args := by
  have hl := line_eq h hs
  have hc := h.command
  rw [hs] at hc
  cases k with
  | csharp => exact absurd rfl h1
  | js => exact absurd rfl h2
  | _ => exact .direct hc hl

/-- **C123** a program in C# or JavaScript is started when it has no arguments. -/
theorem starts_no_args (h : Runs fs ev s [] over e) (hs : s.lang = lang m cc cxx k src) :
    Starts e (exeName k src) [] := by
  have hl := line_eq h hs
  have hc := h.command
  rw [hs] at hc
  cases k with
  | csharp => exact .interpreted "mono" hc hl
  | js => exact .interpreted "node" hc hl
  | _ => exact .direct hc hl

/-- **C123** with arguments the interpreter is started on the first of them: the program is not what is run. -/
theorem wrong_program {a : String} {as : List String} (h : Runs fs ev s (a :: as) over e)
    (hs : s.lang = lang m cc cxx k src) (hk : k = .csharp ∨ k = .js) (ha : a ≠ exeName k src) :
    Starts e a (as ++ [exeName k src]) ∧ ¬ ∃ argv, Starts e (exeName k src) argv := by
  have hl := line_eq h hs
  have hc := h.command
  rw [hs] at hc
  rcases hk with rfl | rfl
  · refine ⟨.interpreted "mono" hc hl, ?_⟩
    rintro ⟨argv, h3 | ⟨i, h3, h4⟩⟩
    · rw [h3] at hc; exact absurd hc (by simp [lang, runCommand])
    · rw [hl] at h4
      simp only [runArgs, List.cons_append, List.cons.injEq] at h4
      exact ha h4.1
  · refine ⟨.interpreted "node" hc hl, ?_⟩
    rintro ⟨argv, h3 | ⟨i, h3, h4⟩⟩
    · rw [h3] at hc; exact absurd hc (by simp [lang, runCommand])
    · rw [hl] at h4
      simp only [runArgs, List.cons_append, List.cons.injEq] at h4
      exact ha h4.1

/-- **C123** the executable of a compiled program is always in its sandbox, under the name it is
started with, whatever its arguments and graders are: only the redirected files (`over`) could take its place. -/
theorem compiled_exe_there (h : Runs fs ev s args over e) (hs : s.lang = lang m cc cxx k src)
    (hc : (compiler m cc cxx k src).isSome = true) (ho : exeName k src ∉ over) :
    ∃ f, e.inputs.get? (exeName k src) = some ⟨f, true⟩ ∧ ExecutableOf fs ev s f := by
  have hr : runWith s = none := by
    unfold runWith
    rw [hs]
    have : (lang m cc cxx k src).compiler.isSome = true := hc
    rw [this]; rfl
  have hd : s.lang.deps = [] := by
    rw [hs]
    cases k with
    | python => exact absurd hc (by simp [compiler])
    | _ => rfl
  have hx : s.lang.exeName = exeName k src := by rw [hs]; rfl
  obtain ⟨f, h1, _, h3⟩ := h.exe (by rw [hd, hr, hx]; simpa using ho)
  rw [hx] at h1
  exact ⟨f, h1, h3⟩

/-- **C123** the script of a Python, shell or JavaScript program is in its sandbox unless an import or the grader has the
same name. -/
theorem script_there (h : Runs fs ev s args over e) (hs : s.lang = lang m cc cxx k src)
    (hc : compiler m cc cxx k src = none) (ho : exeName k src ∉ over)
    (hi : exeName k src ∉ src.imports.map (·.sandboxPath))
    (hg : ∀ g, grader s = some g → g.sandboxPath ≠ exeName k src) :
    ∃ f, e.inputs.get? (exeName k src) = some ⟨f, true⟩ ∧ CopyOf fs ev f s.path := by
  have hx : s.lang.exeName = exeName k src := by rw [hs]; rfl
  have hcn : s.lang.compiler = none := by rw [hs]; exact hc
  obtain ⟨f, h1, _, h3⟩ := h.exe (by
    rw [hx]
    simp only [List.mem_append, not_or]
    refine ⟨⟨ho, ?_⟩, ?_⟩
    · rw [hs]
      cases k <;> first | exact hi | simp [lang]
    · intro h4
      obtain ⟨g, h5, h6⟩ := List.mem_map.mp h4
      unfold runWith at h5
      rw [hcn] at h5
      simp only [Option.isSome_none, Bool.false_eq_true, if_false, Option.mem_toList] at h5
      exact hg g h5 h6)
  rw [hx] at h1
  refine ⟨f, h1, ?_⟩
  unfold ExecutableOf at h3
  rw [hcn] at h3
  exact h3

end Run

/-- **C123** different languages have different names, so a grader is never taken for another language. -/
theorem langName_inj (k k' : Kind) (h : langName k = langName k') : k = k' := by
  revert h
  cases k <;> cases k' <;> first | (intro _; rfl) | (intro h; exact absurd h (by decide))

/-! ## C124 -/

theorem head_string_append (a b : String) (c : Char) (h : a.toList.head? = some c) :
    (a ++ b).toList.head? = some c := by
  rw [String.toList_append]
  cases ha : a.toList with
  | nil => rw [ha] at h; simp at h
  | cons x xs => rw [ha] at h; simpa using h

theorem sourceName_notOption (s : Source) : NotOption (sourceName s) := by
  unfold sourceName NotOption
  split
  · rw [head_string_append "./" s.fileName '.' (by decide)]
    decide
  · assumption

section Compile
variable {fs : FS} {ev : Eval} {s : Src} {comp : Execution} {exe : FileUuid} {m : Machine}
  {cc cxx : CConfig} {k : Kind} {src : Source} {kc : Compiler}

/-- **C124** the compiler is told to write the binary in the file that is taken as the output of the
compilation. -/
theorem compile_output (h : Compilation fs ev s kc comp exe) (hk : compiler m cc cxx k src = some kc) :
    ∃ bin, MakesBinary k comp.args bin ∧ comp.outputs = [(bin, exe)] := by
  refine ⟨kc.binaryName, ?_, h.output⟩
  rw [h.args]
  cases k <;> simp only [compiler, Option.some.injEq, reduceCtorEq] at hk <;> subst hk <;>
    simp only [MakesBinary, gccArgs]
  · exact ⟨["-O2", "-Wall", "-ggdb3", "-DEVAL", "-fdiagnostics-color=always", "-std=" ++ cxx.std], _, by
      simp only [List.cons_append, List.nil_append]; rfl⟩
  · exact ⟨["-O2", "-Wall", "-ggdb3", "-DEVAL", "-fdiagnostics-color=always", "-std=" ++ cc.std], _, by
      simp only [List.cons_append, List.nil_append]; rfl⟩
  · simp
  · exact ⟨["-O", "--cfg", "EVAL"], _, by simp only [List.cons_append, List.nil_append]; rfl⟩
  · simp

/-- **C124** `EVAL` is defined in every compilation. -/
theorem compile_eval (h : Compilation fs ev s kc comp exe) (hk : compiler m cc cxx k src = some kc) :
    DefinesEval k comp.args := by
  rw [h.args]
  cases k <;> simp only [compiler, Option.some.injEq, reduceCtorEq] at hk <;> subst hk <;>
    simp only [DefinesEval, gccArgs]
  · simp
  · simp
  · simp
  · exact ⟨["-O"], _, by simp only [List.cons_append, List.nil_append]; rfl⟩
  · simp

/-- **C124** the source is passed to the compiler, as the last argument, under the name it has in the sandbox, which is
never taken for an option; when there is a grader it comes just before.  In Rust only the grader is passed, and it
finds the source as `source.rs`. -/
theorem compile_source (h : Compilation fs ev s kc comp exe) (hk : compiler m cc cxx k src = some kc)
    (hg : ∀ g, compiledWith s = some g → g.sandboxPath ≠ kc.sourceName) :
    ∃ (name : String) (f : FileUuid), NotOption name ∧ comp.inputs.get? name = some ⟨f, false⟩ ∧
      CopyOf fs ev f s.path ∧
      (k = .rust → name = "source.rs") ∧ (k ≠ .rust → name = src.fileName ∨ name = "./" ++ src.fileName) ∧
      ∃ opts, comp.args = opts ++ (match compiledWith s with
        | none => [name]
        | some g => if k = .rust then [g.sandboxPath] else [g.sandboxPath, name]) := by
  obtain ⟨f, h1, h2⟩ := h.source hg
  refine ⟨kc.sourceName, f, ?_, h1, h2, ?_, ?_, kc.args, ?_⟩
  · cases k <;> simp only [compiler, Option.some.injEq, reduceCtorEq] at hk <;> subst hk <;>
      first | exact sourceName_notOption src | exact (by decide : ("source.rs" : String).toList.head? ≠ some '-')
  · rintro rfl
    simp only [compiler, Option.some.injEq] at hk
    subst hk; rfl
  · intro hr
    have : kc.sourceName = sourceName src := by
      cases k <;> simp only [compiler, Option.some.injEq, reduceCtorEq] at hk <;> subst hk <;>
        first | rfl | exact absurd rfl hr
    rw [this]
    unfold sourceName
    split
    · exact .inr rfl
    · exact .inl rfl
  · rw [h.args]
    cases hw : compiledWith s with
    | none => rfl
    | some g =>
      have : kc.graderOnly = true ↔ k = .rust := by
        cases k <;> simp only [compiler, Option.some.injEq, reduceCtorEq] at hk <;> subst hk <;> simp
      by_cases hr : k = .rust
      · simp only [this.mpr hr, if_true, hr]
      · have h3 : kc.graderOnly = false := by
          cases hh : kc.graderOnly with
          | false => rfl
          | true => exact absurd (this.mp hh) hr
        simp only [h3, hr, Bool.false_eq_true, if_false]

/-- **C124** the flags of the environment are passed to gcc and g++, all, in order, together; with the standard of the
environment; a static link is asked exactly when it should. -/
theorem compile_flags (h : Compilation fs ev s kc comp exe) (hk : compiler m cc cxx k src = some kc)
    (cfg : CConfig) (hc : (k = .c ∧ cfg = cc) ∨ (k = .cpp ∧ cfg = cxx)) :
    comp.command = cfg.compiler ∧ ("-std=" ++ cfg.std) ∈ comp.args ∧
    ∃ pre post, comp.args = pre ++ cfg.flags ++ post ∧
      (src.linkStatic = true → "-static" ∈ post) ∧
      (src.linkStatic = false → post = (match compiledWith s with
        | none => [kc.sourceName]
        | some g => [g.sandboxPath, kc.sourceName])) := by
  rw [h.command, h.args]
  rcases hc with ⟨rfl, rfl⟩ | ⟨rfl, rfl⟩ <;> simp only [compiler, Option.some.injEq] at hk <;> subst hk
  · refine ⟨rfl, by simp [gccArgs], ["-O2", "-Wall", "-ggdb3", "-DEVAL", "-fdiagnostics-color=always",
      "-std=" ++ cfg.std, "-o", "__compiled", "-lm"], (if src.linkStatic then ["-static"] else []) ++ (match compiledWith s with
        | none => [sourceName src]
        | some g => [g.sandboxPath, sourceName src]), ?_, ?_, ?_⟩
    · simp only [gccArgs, List.cons_append, List.nil_append, List.append_assoc]
      cases compiledWith s <;> rfl
    · intro hl; simp [hl]
    · intro hl
      simp only [hl, Bool.false_eq_true, if_false, List.nil_append]
  · refine ⟨rfl, by simp [gccArgs], ["-O2", "-Wall", "-ggdb3", "-DEVAL", "-fdiagnostics-color=always",
      "-std=" ++ cfg.std, "-o", "__compiled"], (if src.linkStatic then ["-static"] else []) ++ (match compiledWith s with
        | none => [sourceName src]
        | some g => [g.sandboxPath, sourceName src]), ?_, ?_, ?_⟩
    · simp only [gccArgs, List.cons_append, List.nil_append, List.append_assoc]
      cases compiledWith s <;> rfl
    · intro hl; simp [hl]
    · intro hl
      simp only [hl, Bool.false_eq_true, if_false, List.nil_append]

end Compile

/-- The first of the variables that is set. -/
def FirstSet (m : Machine) (vars : List String) (dflt v : String) : Prop :=
  (∃ pre x post, vars = pre ++ x :: post ∧ (∀ y ∈ pre, m.env y = none) ∧ m.env x = some v) ∨
  ((∀ y ∈ vars, m.env y = none) ∧ v = dflt)

theorem firstSet_two (m : Machine) (a b d : String) :
    FirstSet m [a, b] d (((m.env a).or (m.env b)).getD d) := by
  cases ha : m.env a with
  | some v => exact .inl ⟨[], a, [b], rfl, by simp, by rw [ha]; rfl⟩
  | none =>
    cases hb : m.env b with
    | some v => exact .inl ⟨[a], b, [], rfl, by simpa using ha, by rw [hb]; rfl⟩
    | none => exact .inr ⟨by simp [ha, hb], rfl⟩

/-- **C124** the compilers, standards and flags come from the variables of task-maker, then from the usual ones,
then from the defaults. -/
theorem config_spec (m : Machine) (cc cxx : CConfig) (h1 : cConfig m = some cc) (h2 : cppConfig m = some cxx) :
    (∃ c, FirstSet m ["TM_CC", "CC"] "gcc" c ∧ cc.compiler = .system c) ∧
    (∃ c, FirstSet m ["TM_CXX", "CXX"] "g++" c ∧ cxx.compiler = .system c) ∧
    FirstSet m ["TM_CC_STD_VERSION"] "c11" cc.std ∧ FirstSet m ["TM_CXX_STD_VERSION"] "c++17" cxx.std ∧
    (∃ f, FirstSet m ["TM_CFLAGS", "CFLAGS"] "" f ∧ m.split f = some cc.flags) ∧
    (∃ f, FirstSet m ["TM_CXXFLAGS", "CXXFLAGS"] "" f ∧ m.split f = some cxx.flags) := by
  have one : ∀ a d, FirstSet m [a] d ((m.env a).getD d) := by
    intro a d
    cases ha : m.env a with
    | some v => exact .inl ⟨[], a, [], rfl, by simp, by rw [ha]; rfl⟩
    | none => exact .inr ⟨by simp [ha], rfl⟩
  unfold cConfig at h1
  unfold cppConfig at h2
  simp only [Option.map_eq_some_iff] at h1 h2
  obtain ⟨f1, h1, rfl⟩ := h1
  obtain ⟨f2, h2, rfl⟩ := h2
  exact ⟨⟨_, firstSet_two m _ _ _, rfl⟩, ⟨_, firstSet_two m _ _ _, rfl⟩, one _ _, one _ _,
    ⟨_, firstSet_two m _ _ _, h1⟩, ⟨_, firstSet_two m _ _ _, h2⟩⟩

/-- **C124** the configuration of the Pascal compiler is the first that exists of those its manual lists. -/
theorem fpcCfg_first (m : Machine) :
    findFpcCfg m = ((((m.env "HOME").map (· ++ "/.fpc.cfg")).toList ++
      ((m.env "PPC_CONFIG_PATH").map (· ++ "/fpc.cfg")).toList ++
      (m.fpcHome.map (· ++ "/etc/fpc.cfg")).toList ++ ["/etc/fpc.cfg"]).find? m.present) := by
  unfold findFpcCfg
  cases m.env "HOME" with
  | none =>
    cases m.env "PPC_CONFIG_PATH" with
    | none =>
      cases m.fpcHome with
      | none => simp [List.find?_cons]; split <;> simp_all
      | some c => simp [List.find?_cons]; split <;> split <;> simp_all
    | some b =>
      cases m.fpcHome with
      | none => simp [List.find?_cons]; split <;> split <;> simp_all
      | some c => simp [List.find?_cons]; split <;> split <;> simp_all <;> split <;> simp_all
  | some a =>
    cases m.env "PPC_CONFIG_PATH" with
    | none =>
      cases m.fpcHome with
      | none => simp [List.find?_cons]; split <;> split <;> simp_all
      | some c => simp [List.find?_cons]; split <;> split <;> simp_all <;> split <;> simp_all
    | some b =>
      cases m.fpcHome with
      | none => simp [List.find?_cons]; split <;> split <;> simp_all <;> split <;> simp_all
      | some c =>
        simp [List.find?_cons]
        split <;> split <;> simp_all <;> split <;> simp_all <;> split <;> simp_all

/-! ## A concrete task

The generator is in JavaScript and takes an argument, the solution is in C++ and its name begins with a dash. -/

namespace Sample

/-- No variable is set. -/
def machine : Machine := ⟨fun _ => none, fun s => if s = "" then some [] else none, fun _ => false, none⟩
/-- gcc. -/
def cc : CConfig := ⟨.system "gcc", "c11", []⟩
/-- g++. -/
def cxx : CConfig := ⟨.system "g++", "c++17", ["-g"]⟩
/-- generator.js -/
def genSource : Source := ⟨"generator.js", "generator", none, [], false⟩
/-- -fast.cpp -/
def solSource : Source := ⟨"-fast.cpp", "-fast", none, [⟨"/task/sol/lib.hpp", "lib.hpp", false⟩], true⟩
/-- The generator. -/
def gen : Src := { id := 0, path := "/task/gen/generator.js", basePath := "/task", lang := lang machine cc cxx .js genSource }
/-- The solution. -/
def sol : Src := { id := 1, path := "/task/sol/-fast.cpp", basePath := "/task", lang := lang machine cc cxx .cpp solSource }
/-- One subtask, one testcase. -/
def task : Task :=
  { path := "/task", infile := none, outfile := none, timeLimit := some 2000000, memoryLimit := some 256,
    subtasks := [(0, { id := 0, testcases := [0], owned := [0], validator := .assumeValid })],
    testcases := [(0, ⟨0, .custom gen ["10"], .notAvailable⟩)],
    type := .batch .whiteDiff }
/-- All the files can be read. -/
def fs : FS := { present := fun _ => false, key := fun p => some ⟨p⟩ }

theorem fits : Fits 10 task [sol] := by
  refine ⟨?_, ?_, ?_, ?_, by decide⟩
  · simp [sources, typeSources, task, AMap.values, validatorSources, inputSources, outputSources, gen, sol]
  · simp [sources, typeSources, task, AMap.values, validatorSources, inputSources, outputSources, gen, sol, gradersOf]
  · simp [sources, typeSources, task, AMap.values, validatorSources, inputSources, outputSources, gen, sol, gradersOf]
  · intro k tc h
    simp only [task] at h
    simp only [AMap.get?] at h
    grind

theorem built : ∃ io ev, buildDag fs "/task" task [sol] (start 10 {}) = .ok (io, ev) := by
  have h : (buildDag fs "/task" task [sol] (start 10 {})).toOption.isSome = true := by decide +kernel
  cases hb : buildDag fs "/task" task [sol] (start 10 {}) with
  | error err => rw [hb] at h; simp [Except.toOption] at h
  | ok r => exact ⟨r.1, r.2, rfl⟩

/-- The generator and the solution of the task are run. -/
theorem runs : ∃ ev e e', Runs fs ev gen ["10"] [] e ∧ Runs fs ev sol [] [] e' := by
  obtain ⟨io, ev, hr⟩ := built
  obtain ⟨tc, input, handle, output, h1, -, h3⟩ :=
    testcase_prepared fits hr (st := { id := 0, testcases := [0], owned := [0], validator := .assumeValid }) (k := 0)
      (by simp [task, AMap.values]) (by simp)
  have : tc = ⟨0, .custom gen ["10"], .notAvailable⟩ := by
    have : task.testcases.get? 0 = some ⟨0, .custom gen ["10"], .notAvailable⟩ := rfl
    rw [this] at h1
    exact (Option.some.inj h1).symm
  subst this
  obtain ⟨e, h4, -⟩ := h3.generated
  have hh : handle = none := h3.validated
  subst hh
  obtain ⟨e', -, -, h5, -⟩ := h3.evaluated 0 sol rfl
  exact ⟨ev, e, e', h4, h5⟩

/-- ... and the solution is compiled. -/
theorem compiles : ∃ ev kc comp exe, compiler machine cc cxx .cpp solSource = some kc ∧
    Compilation fs ev sol kc comp exe := by
  obtain ⟨ev, -, e, -, h⟩ := runs
  obtain ⟨f, -, h2⟩ := compiled_exe_there (k := .cpp) (src := solSource) h rfl rfl (by simp)
  obtain ⟨comp, h3⟩ := h2
  exact ⟨ev, _, comp, f, rfl, h3⟩

end Sample

/-- **C123** what the user expects does not hold: in a real task the generator in JavaScript is not what `node` runs. -/
theorem starts_not_always : ¬ ∀ (fs : FS) (ev : Eval) (s : Src) (args over : List String) (e : Execution) (m : Machine)
    (cc cxx : CConfig) (k : Kind) (src : Source), Runs fs ev s args over e → s.lang = lang m cc cxx k src →
      Starts e (exeName k src) args := by
  intro h
  obtain ⟨ev, e, -, h1, -⟩ := Sample.runs
  exact (wrong_program (k := .js) (src := Sample.genSource) h1 rfl (.inr rfl) (by decide)).2 ⟨_, h _ _ _ _ _ _ _ _ _ _ _ h1 rfl⟩

/-- `node 10 generator` -/
example : ∃ ev e, Runs Sample.fs ev Sample.gen ["10"] [] e ∧ e.command = .system "node" ∧
    e.args = ["10", "generator"] ∧ Starts e "10" ["generator"] := by
  obtain ⟨ev, e, -, h1, -⟩ := Sample.runs
  exact ⟨ev, e, h1, h1.command, line_eq (k := .js) (src := Sample.genSource) h1 rfl,
    (wrong_program (k := .js) (src := Sample.genSource) h1 rfl (.inr rfl) (by decide)).1⟩

/-- The solution is started directly, with the executable in place. -/
example : ∃ ev e, Runs Sample.fs ev Sample.sol [] [] e ∧ Starts e "-fast" [] ∧
    ∃ f, e.inputs.get? "-fast" = some ⟨f, true⟩ ∧ ExecutableOf Sample.fs ev Sample.sol f := by
  obtain ⟨ev, -, e, -, h1⟩ := Sample.runs
  exact ⟨ev, e, h1, starts_partial (k := .cpp) (src := Sample.solSource) h1 rfl (by decide) (by decide),
    compiled_exe_there (k := .cpp) (src := Sample.solSource) h1 rfl rfl (by simp)⟩

/-- The script of the generator is in its sandbox. -/
example : ∃ ev e, Runs Sample.fs ev Sample.gen ["10"] [] e ∧
    ∃ f, e.inputs.get? "generator" = some ⟨f, true⟩ ∧ CopyOf Sample.fs ev f "/task/gen/generator.js" := by
  obtain ⟨ev, e, -, h1, -⟩ := Sample.runs
  exact ⟨ev, e, h1, script_there (k := .js) (src := Sample.genSource) h1 rfl rfl (by simp) (by simp [Sample.genSource])
    (by intro g hg; exact absurd hg (by simp [grader, Sample.gen]))⟩

/-- The name of the source is protected from being taken for an option of `g++`. -/
example : ∃ ev kc comp exe, Compilation Sample.fs ev Sample.sol kc comp exe ∧
    comp.args = ["-O2", "-Wall", "-ggdb3", "-DEVAL", "-fdiagnostics-color=always", "-std=c++17", "-o", "__compiled",
      "-g", "-static", "./-fast.cpp"] ∧
    (∃ bin, MakesBinary .cpp comp.args bin ∧ comp.outputs = [(bin, exe)]) ∧ DefinesEval .cpp comp.args ∧
    ∃ f, comp.inputs.get? "./-fast.cpp" = some ⟨f, false⟩ ∧ CopyOf Sample.fs ev f "/task/sol/-fast.cpp" := by
  obtain ⟨ev, kc, comp, exe, h1, h2⟩ := Sample.compiles
  refine ⟨ev, kc, comp, exe, h2, ?_, compile_output h2 h1, compile_eval h2 h1, ?_⟩
  · rw [h2.args]
    cases h1
    decide +kernel
  · have h3 : kc.sourceName = "./-fast.cpp" := by
      cases h1
      decide +kernel
    rw [← h3]
    exact h2.source (by intro g hg; rw [show compiledWith Sample.sol = none from rfl] at hg; cases hg)

/-- The environment wins over the defaults. -/
example : ∃ c, cConfig { Sample.machine with env := fun v => if v = "CC" then some "clang" else none } = some c ∧
    c.compiler = .system "clang" ∧ c.std = "c11" := ⟨_, rfl, rfl, rfl⟩

end TM.Known
