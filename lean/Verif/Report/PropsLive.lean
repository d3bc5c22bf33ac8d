import Verif.Report.Props
/-!
# What the report says of an evaluation (C112, C113, C115)
-/
namespace TM.Report
open TM TM.Build TM.Ui DagSpec Build.Spec Ui.Spec Report.Spec

variable {n : Uuid} {cfg : DagConfig} {fs : FS} {root : String} {task : Task} {sols : List Src}
  {io : GeneratedIo} {ev : Eval} {mx : Nat → Rat} {agg : Score.Aggregator} {order : Nat → List Nat}
  {ms : AMap Nat Score.Manager} {checks : List (Nat × List SolCheck)} {pick : Live → List Nat}
  {ns : List Notice} {l : Live} {v : View}

/-- The states of the UI during an evaluation are among those of the theorems about the report. -/
theorem live_reached (h : Fits n task sols) (hk : Keyed task)
    (hr : buildDag fs root task sols (start n cfg) = .ok (io, ev))
    (hms : newManagers (scoreTask task mx agg) order (List.range sols.length) = some ms)
    (hpick : ∀ l, (scoreTask task mx agg).Order (pick l))
    (hl : Live.follow pick ev ms checks ns = some l) {s : State} (hs : l.ui task = some s) : Reached task s :=
  ⟨l.sent, messages_known h hk hr List.nodup_range hms hpick hl, hs⟩

/-- **C112** The report of an evaluation is printed, whatever the server says and whenever it stops. -/
theorem report_printed (h : Fits n task sols) (hsound : Sound task) (hle : TotalLe v.le)
    (hr : buildDag fs root task sols (start n cfg) = .ok (io, ev))
    (hms : newManagers (scoreTask task mx agg) order (List.range sols.length) = some ms)
    (hpick : ∀ l, (scoreTask task mx agg).Order (pick l))
    (hl : Live.follow pick ev ms checks ns = some l) :
    ∃ s lines, l.ui task = some s ∧ report task v s = some lines := by
  obtain ⟨s, hs⟩ := ui_never_panics h hsound.keyed hr hms hpick hl
  obtain ⟨lines, hp⟩ := report_never_panics (v := v) hsound hle (live_reached h hsound.keyed hr hms hpick hl hs)
  exact ⟨s, lines, hs, hp⟩

/-- **C113** The letter of a testcase of a batch task: `A` if the solution succeeded and the checker gave 1 up to a
thousandth, `W` if it gave 0, `T` if the solution exceeded a time limit, `M` if it exceeded the memory limit, `R` if it
crashed, `S` if it was skipped.  Missing: the communication tasks, see `communication_status_lost`. -/
theorem letter_shown_partial (h : Fits n task sols) (hk : Keyed task)
    (htc : ∀ st ∈ task.subtasks.values, st.testcases.Nodup)
    (hr : buildDag fs root task sols (start n cfg) = .ok (io, ev)) {checker : Checker}
    (ht : task.type = .batch checker) {st : Subtask} (hst : st ∈ task.subtasks.values) {k : Nat}
    (hown : k ∈ st.owned) {j : Nat} (hj : j < sols.length) {e q : Execution} (he : e ∈ allExecs ev.dag)
    (hq : q ∈ allExecs ev.dag) (hre : Reports ev e.uuid (.evaluation st.id k j 0 1))
    (hrq : Reports ev q.uuid (.checker st.id k j))
    (hms : newManagers (scoreTask task mx agg) order (List.range sols.length) = some ms)
    (ho : Build.Spec.Ordered ev.dag ns) (hl : Live.follow pick ev ms checks ns = some l) {s : State}
    (hs : l.ui task = some s) :
    let letter := letterOf (statusOf s j k)
    let ended := endOf ns e.uuid
    let score := (outcomeOf ns q.uuid).bind (fun o => (verdict checker o).head?)
    (letter = 'A' ↔ ended = some .success ∧ ∃ x text, score = some (.num x, text) ∧ -(1/1000) < x - 1 ∧ x - 1 < 1/1000) ∧
    (letter = 'W' ↔ ended = some .success ∧ ∃ text, score = some (.num 0, text)) ∧
    (letter = 'T' ↔ ended = some .timeLimitExceeded ∨ ended = some .sysTimeLimitExceeded ∨
      ended = some .wallTimeLimitExceeded) ∧
    (letter = 'M' ↔ ended = some .memoryLimitExceeded) ∧
    (letter = 'R' ↔ (∃ c, ended = some (.returnCode c)) ∨ ∃ a b, ended = some (.signal a b)) ∧
    (letter = 'F' ↔ ∃ m, ended = some (.internalError m)) ∧
    (letter = 'S' ↔ ended = none ∧ .skipped e.uuid ∈ ns) := by
  obtain ⟨x, h1, h2, -⟩ := status_shown_partial h hk htc hr ht hst hown hj he hq hre hrq hms ho hl hs
  have hstat : statusOf s j k = batchStatus checker e.uuid q.uuid ns := by
    unfold statusOf; rw [h1, ← h2]; rfl
  simp only [hstat]
  unfold endOf batchStatus
  cases outcomeOf ns e.uuid with
  | none =>
    simp only [Option.map_none]
    by_cases ha : Notice.skipped e.uuid ∈ ns
    · simp [ha, letterOf]
    · by_cases hb : Notice.started e.uuid ∈ ns
      · simp [ha, hb, letterOf]
      · simp [ha, hb, letterOf]
  | some o =>
    simp only [Option.map_some, Option.some.injEq, reduceCtorEq, false_and, iff_false]
    cases hos : o.status with
    | success =>
      simp only [ne_eq, not_true_eq_false, if_false]
      cases hv : (outcomeOf ns q.uuid).bind (fun o => (verdict checker o).head?) with
      | none =>
        by_cases hb : Notice.started q.uuid ∈ ns
        · simp [hb, letterOf]
        · simp [hb, letterOf]
      | some p =>
        obtain ⟨y, text⟩ := p
        cases y with
        | nan => simp [scoredAs, letterOf]
        | num z =>
          simp only [scoredAs]
          by_cases hz : z = 0
          · subst hz
            simp only [if_true, letterOf]
            refine ⟨?_, ?_, ?_, ?_, ?_, ?_, ?_⟩ <;> simp
            · grind
          · simp only [hz, if_false]
            by_cases hone : -(1 / 1000) < z - 1 ∧ z - 1 < 1 / 1000
            · simp only [hone, and_self, if_true, letterOf]
              refine ⟨?_, ?_, ?_, ?_, ?_, ?_, ?_⟩ <;> simp
              · exact hone
              · exact hz
            · simp only [hone, if_false, letterOf]
              refine ⟨?_, ?_, ?_, ?_, ?_, ?_, ?_⟩ <;> simp
              · grind
              · exact hz
    | returnCode c => simp [failedAs, letterOf]
    | signal a b => simp [failedAs, letterOf]
    | timeLimitExceeded => simp [failedAs, letterOf]
    | sysTimeLimitExceeded => simp [failedAs, letterOf]
    | wallTimeLimitExceeded => simp [failedAs, letterOf]
    | memoryLimitExceeded => simp [failedAs, letterOf]
    | internalError m => simp [failedAs, letterOf]

/-- **C115** The line of a testcase says `Generated`, `Validated`, `Solved` if and only if the generator, the validator,
the official solution succeeded. -/
theorem generated_shown (h : Fits n task sols) (hk : Keyed task)
    (htc : ∀ st ∈ task.subtasks.values, st.testcases.Nodup)
    (hin : task.infile ≠ some "wait_for_validation")
    (hr : buildDag fs root task sols (start n cfg) = .ok (io, ev)) {st : Subtask}
    (hst : st ∈ task.subtasks.values) {k : Nat} (hown : k ∈ st.owned) (ho : Build.Spec.Ordered ev.dag ns)
    (hl : Live.follow pick ev ms checks ns = some l) {s : State} (hs : l.ui task = some s) {row : Line}
    (hrow : GenRow v k (genOf s st.id k) row) :
    let said := (row.filter (fun x => x.color = .green)).map (·.text)
    (∀ u, Reports ev u (.generation st.id k) → ("Generated".toList ∈ said ↔ endOf ns u = some .success)) ∧
    (∀ u, Reports ev u (.validation st.id k) → ("Validated".toList ∈ said ↔ endOf ns u = some .success)) ∧
    (∀ u, Reports ev u (.officialOutput st.id k) → ("Solved".toList ∈ said ↔ endOf ns u = some .success)) := by
  obtain ⟨g, h1, h2, h3, h4, -⟩ := generation_shown_partial h hk htc hin hr hst hown ho hl hs
  have hg : genOf s st.id k = g := by unfold genOf; rw [h1]; rfl
  rw [hg] at hrow
  have hne1 : ("Generated".toList : List Char) ≠ "Validated".toList := by decide
  have hne2 : ("Generated".toList : List Char) ≠ "Solved".toList := by decide
  have hne3 : ("Validated".toList : List Char) ≠ "Solved".toList := by decide
  simp only
  rw [hrow.2.1]
  unfold done steps
  revert hne1 hne2 hne3
  generalize ("Generated".toList : List Char) = a
  generalize ("Validated".toList : List Char) = b
  generalize ("Solved".toList : List Char) = c
  intro hab hac hbc
  refine ⟨fun u hu => ?_, fun u hu => ?_, fun u hu => ?_⟩
  · rw [← h2 u hu]
    by_cases x1 : g.generation = some .success <;> by_cases x2 : g.validation = some .success <;>
      by_cases x3 : g.solution = some .success <;> simp [x1, x2, x3, hab, hac, hbc, hab.symm, hac.symm, hbc.symm]
  · rw [← h3 u hu]
    by_cases x1 : g.generation = some .success <;> by_cases x2 : g.validation = some .success <;>
      by_cases x3 : g.solution = some .success <;> simp [x1, x2, x3, hab, hac, hbc, hab.symm, hac.symm, hbc.symm]
  · rw [← h4 u hu]
    by_cases x1 : g.generation = some .success <;> by_cases x2 : g.validation = some .success <;>
      by_cases x3 : g.solution = some .success <;> simp [x1, x2, x3, hab, hac, hbc, hab.symm, hac.symm, hbc.symm]

end TM.Report
