import Verif.Parse.YamlLemmas
import Verif.Parse.Sample

/-!
# C110: what task.yaml says
-/
namespace TM.Parse
open TM AMap TM.Find

/-- **C110** A `task.yaml` is accepted exactly when it says something, and the task is what it says: its fields have
the values of the file, or their defaults when they are missing. -/
theorem yaml_exact (d : Doc) (y : Yaml) : readYaml d = some y ↔ YamlSays d y := by
  have n1 := fun a => required_iff asText_iff (d := d) ["name", "nome_breve"] (a := a)
  have n2 := fun a => required_iff asText_iff (d := d) ["title", "nome"] (a := a)
  have n3 := fun a => optional_iff asAggregator_iff (d := d) ["score_type"] null_aggregator (a := a)
  have n4 := fun a => optional_iff asPairs_iff (d := d) ["score_type_parameters"] null_pairs (a := a)
  have n5 := fun a => default_iff (asNat_iff (2 ^ 64)) (d := d) ["score_precision"] (dflt := 0) (a := a)
  have n6 := fun a => optional_iff asText_iff (d := d) ["primary_language"] null_text (a := a)
  have n7 := fun a => optional_iff asNum_iff (d := d) ["time_limit", "timeout"] null_num (a := a)
  have n8 := fun a => optional_iff (asNat_iff (2 ^ 64)) (d := d) ["memory_limit", "memlimit"] (null_nat _) (a := a)
  have n9 := fun a => default_iff asBool_iff (d := d) ["output_only"] (dflt := false) (a := a)
  have n10 := fun a => default_iff asText_iff (d := d) ["infile"] (dflt := "input.txt".toList) (a := a)
  have n11 := fun a => default_iff asText_iff (d := d) ["outfile"] (dflt := "output.txt".toList) (a := a)
  have n12 := fun a => optional_iff (asNat_iff (2 ^ 8)) (d := d) ["difficulty"] (null_nat _) (a := a)
  have n13 := fun a => optional_iff (asNat_iff (2 ^ 8)) (d := d) ["syllabuslevel"] (null_nat _) (a := a)
  have n14 := fun a => optional_iff (asNat_iff (2 ^ 8)) (d := d) ["num_processes"] (null_nat _) (a := a)
  have n15 := fun a => optional_iff asText_iff (d := d) ["user_io"] null_text (a := a)
  have n16 := fun a => optional_iff asText_iff (d := d) ["score_mode"] null_text (a := a)
  have n17 := fun a => optional_iff asText_iff (d := d) ["token_mode"] null_text (a := a)
  have n18 := fun a => optional_iff asText_iff (d := d) ["public_testcases"] null_text (a := a)
  have n19 := fun a => optional_iff asText_iff (d := d) ["feedback_level"] null_text (a := a)
  simp only [List.map_cons, List.map_nil] at n1 n2 n3 n4 n5 n6 n7 n8 n9 n10 n11 n12 n13 n14 n15 n16 n17 n18 n19
  unfold readYaml
  simp only [bind, Option.bind_eq_some_iff, Option.some.injEq, n1, n2, n3, n4, n5, n6, n7, n8, n9, n10, n11, n12,
    n13, n14, n15, n16, n17, n18, n19]
  constructor
  · rintro ⟨a1, h1, a2, h2, a3, h3, a4, h4, a5, h5, a6, h6, a7, h7, a8, h8, a9, h9, a10, h10, a11, h11, a12, h12,
      a13, h13, a14, h14, a15, h15, a16, h16, a17, h17, a18, h18, a19, h19, rfl⟩
    exact ⟨h1, h2, h3, h4, h5, h6, h7, h8, h9, h10, h11, h12, h13, h14, h15, h16, h17, h18, h19⟩
  · intro h
    exact ⟨_, h.name, _, h.title, _, h.scoreType, _, h.params, _, h.precision, _, h.language, _, h.time, _, h.memory,
      _, h.outputOnly, _, h.infile, _, h.outfile, _, h.difficulty, _, h.syllabus, _, h.processes, _, h.userIo,
      _, h.scoreMode, _, h.tokenMode, _, h.publicTestcases, _, h.feedbackLevel, rfl⟩

/-- **C110** The same for `task.yaml.orig`, that has other defaults, needs the limits, and whose `name` is not used:
the name of the task is the one of its directory. -/
theorem orig_exact (d : Doc) (n : Text) (y : Yaml) :
    (∃ mk, readOrig d = some mk ∧ y = mk n) ↔ OrigSays d n y := by
  have n1 := fun a => default_iff asText_iff (d := d) ["name"] (dflt := []) (a := a)
  have n2 := fun a => required_iff asText_iff (d := d) ["title"] (a := a)
  have n3 := fun a => optional_iff asAggregator_iff (d := d) ["score_type"] null_aggregator (a := a)
  have n5 := fun a => default_iff (asNat_iff (2 ^ 64)) (d := d) ["score_precision"] (dflt := 0) (a := a)
  have n6 := fun a => optional_iff asText_iff (d := d) ["primary_language"] null_text (a := a)
  have n7 := fun a => required_iff asNum_iff (d := d) ["time_limit"] (a := a)
  have n8 := fun a => required_iff (asNat_iff (2 ^ 64)) (d := d) ["memory_limit"] (a := a)
  have n9 := fun a => default_iff asBool_iff (d := d) ["output_only"] (dflt := false) (a := a)
  have n10 := fun a => default_iff asText_iff (d := d) ["infile"] (dflt := []) (a := a)
  have n11 := fun a => default_iff asText_iff (d := d) ["outfile"] (dflt := []) (a := a)
  have n12 := fun a => optional_iff (asNat_iff (2 ^ 8)) (d := d) ["difficulty"] (null_nat _) (a := a)
  have n13 := fun a => optional_iff (asNat_iff (2 ^ 8)) (d := d) ["syllabuslevel"] (null_nat _) (a := a)
  have n14 := fun a => optional_iff (asNat_iff (2 ^ 8)) (d := d) ["num_processes"] (null_nat _) (a := a)
  have n15 := fun a => optional_iff asText_iff (d := d) ["user_io"] null_text (a := a)
  simp only [List.map_cons, List.map_nil] at n1 n2 n3 n5 n6 n7 n8 n9 n10 n11 n12 n13 n14 n15
  unfold readOrig
  simp only [bind, Option.bind_eq_some_iff, Option.some.injEq, n1, n2, n3, n5, n6, n7, n8, n9, n10, n11, n12,
    n13, n14, n15]
  constructor
  · rintro ⟨mk, ⟨a1, h1, a2, h2, a3, h3, a5, h5, a6, h6, a7, h7, a8, h8, a9, h9, a10, h10, a11, h11, a12, h12,
      a13, h13, a14, h14, a15, h15, rfl⟩, rfl⟩
    refine ⟨⟨rfl, a1, h1⟩, h2, h3, rfl, h5, ⟨a6, h6, ?_⟩, ⟨_, h7, rfl⟩, ⟨_, h8, rfl⟩, h9, h10, h11, h12, h13, h14, h15,
      rfl, rfl, rfl, rfl⟩
    cases a6 with
    | none => exact Or.inl ⟨rfl, rfl⟩
    | some l => exact Or.inr ⟨by simp, rfl⟩
  · intro h
    obtain ⟨hn, a1, h1⟩ := h.name
    obtain ⟨l, h6, hl⟩ := h.language
    obtain ⟨t, h7, ht⟩ := h.time
    obtain ⟨m, h8, hm⟩ := h.memory
    refine ⟨_, ⟨a1, h1, _, h.title, _, h.scoreType, _, h.precision, _, h6, _, h7, _, h8, _, h.outputOnly,
      _, h.infile, _, h.outfile, _, h.difficulty, _, h.syllabus, _, h.processes, _, h.userIo, rfl⟩, ?_⟩
    have e1 := h.params
    have e2 := h.scoreMode
    have e3 := h.tokenMode
    have e4 := h.publicTestcases
    have e5 := h.feedbackLevel
    have el : y.language = some (l.getD "en".toList) := by
      rcases hl with ⟨rfl, hl⟩ | ⟨hne, hl⟩
      · rw [hl]; rfl
      · cases l with
        | none => exact absurd rfl hne
        | some l => rw [hl]; rfl
    cases y
    simp only at hn ht hm e1 e2 e3 e4 e5 el
    simp only [hn, ht, hm, e1, e2, e3, e4, e5, el]

/-- **C110** The `task.yaml` that is written for a `task.yaml.orig` says the same. -/
theorem written_yaml {d : Doc} {n : Text} {y : Yaml} (h : OrigSays d n y) (a : Aggregator) (ps : List (Rat × Text)) :
    readYaml (writeYaml { y with scoreType := some a, params := some ps }) =
      some { y with scoreType := some a, params := some ps } := by
  rw [yaml_exact]
  refine write_says ?_ rfl
  have h := orig_inRange h
  exact h

/-- Non-vacuity: what the two sample files say; the name of `task.yaml.orig` does not matter, and the files of the
input and of the output have different defaults. -/
example : (readYaml sampleYaml).map (fun y => (String.ofList y.name, y.scoreType, y.precision, y.time, y.memory)) =
      some ("easy", none, 0, some 2, some 256) ∧
    (readYaml sampleYaml).map (fun y => (String.ofList y.infile, String.ofList y.outfile, y.language.isNone, y.processes, y.outputOnly)) =
      some ("", "output.txt", true, none, false) ∧
    (readOrig sampleOrig).map (fun f => (f ['x']).name) = some ['x'] ∧
    (readOrig sampleOrig).map (fun f => ((f ['x']).scoreType, (f ['x']).time, (f ['x']).infile, (f ['x']).outfile)) =
      some (some .sum, some (3 / 2), [], []) ∧
    (readOrig sampleOrig).map (fun f => ((f ['x']).language, (f ['x']).scoreMode)) =
      some (some "en".toList, some "max_subtask".toList) := by
  refine ⟨?_, ?_, ?_, ?_, ?_⟩ <;> decide +kernel

/-- Files that are refused: without the title, with the name in both languages, with a negative memory limit, with a
list as the name, with too many processes, with a number as the type of the score. -/
theorem yaml_refused : [[("name".toList, .str ['x'])], ("name".toList, .str ['x']) :: sampleYaml,
      ("memory_limit".toList, .int (-1)) :: [("name".toList, .str ['x']), ("title".toList, .str ['y'])],
      [("name".toList, .other), ("title".toList, .str ['y'])],
      [("name".toList, .str ['x']), ("title".toList, .str ['y']), ("num_processes".toList, .int 256)],
      [("name".toList, .str ['x']), ("title".toList, .str ['y']), ("score_type".toList, .int 1)]].map (fun d => (readYaml d).isNone) =
    [true, true, true, true, true, true] := by decide +kernel

/-- A yaml file without the limits is accepted as `task.yaml` and refused as `task.yaml.orig`; the Italian names are
accepted only in `task.yaml`. -/
theorem orig_stricter : ∃ d d' : Doc, (readYaml d).isSome ∧ (readOrig d).isNone ∧ (readYaml d').isSome ∧ (readOrig d').isNone ∧
    Says d ["title"] (.str ['y']) ∧ Says d' ["nome"] (.str ['y']) ∧ Says d' ["time_limit"] (.int 1) ∧ Says d' ["memory_limit"] (.int 1) := by
  refine ⟨[("name".toList, .str ['x']), ("title".toList, .str ['y'])],
    [("name".toList, .str ['x']), ("nome".toList, .str ['y']), ("time_limit".toList, .int 1), ("memory_limit".toList, .int 1)],
    by decide +kernel, by decide +kernel, by decide +kernel, by decide +kernel, ?_, ?_, ?_, ?_⟩
  · exact ⟨_, List.mem_singleton.2 rfl, by decide +kernel⟩
  · exact ⟨_, List.mem_singleton.2 rfl, by decide +kernel⟩
  · exact ⟨_, List.mem_singleton.2 rfl, by decide +kernel⟩
  · exact ⟨_, List.mem_singleton.2 rfl, by decide +kernel⟩

end TM.Parse
