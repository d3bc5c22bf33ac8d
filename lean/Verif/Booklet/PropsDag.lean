import Verif.Booklet.Finish
/-!
# The DAG of the booklets (C100, C101)
-/
namespace TM.Booklet
open TM TM.Build TM.Text DagSpec Build.Spec Spec

variable {w : World} {root : String} {bs : List Booklet} {ev₀ ev : Eval}

/-! ## C100: what is compiled -/

/-- **C100** The DAG with the booklets is accepted by the server. -/
theorem booklets_accepted (h : Before w root ev₀) (hr : buildBooklets w root bs ev₀ = .ok ((), ev)) :
    CheckDag.checkDag ev.dag (callbacks ev) = .ok () :=
  (buildBooklets_spec h.inv hr).1.accepted

/-- **C100** Every booklet is compiled by LaTeX, with the files of its statements (the pictures they mention being drawn and
cropped), and the pdf is written to its destination. -/
theorem booklets_compiled (h : Before w root ev₀) (hr : buildBooklets w root bs ev₀ = .ok ((), ev)) {b : Booklet} (hb : b ∈ bs) :
    ∃ e, Compiles w root ev b e :=
  (buildBooklets_spec h.inv hr).2.2 b hb

/-- **C100** A path of the sandbox for which there is only one file has that file. -/
theorem sandbox_file {e : Execution} {b : Booklet} (hc : Compiles w root ev b e) {p : String} {o : Origin} (he : Entry w b p o)
    (hu : ∀ o', Entry w b p o' → o' = o) :
    ∃ i, e.inputs.get? p = some i ∧ i.executable = false ∧ Holds w root ev b.name i.file o := by
  obtain ⟨-, -, -, ⟨h1, h2⟩, -⟩ := hc
  obtain ⟨i, hi⟩ := h2 p o he
  obtain ⟨hx, o', ho, hh⟩ := h1 p i hi
  rw [hu o' ho] at hh
  exact ⟨i, hi, hx, hh⟩

/-- **C100** Nothing else of the sandbox: a path that is not the path of a file of the booklet is not there. -/
theorem sandbox_only {e : Execution} {b : Booklet} (hc : Compiles w root ev b e) {p : String} (he : ∀ o, ¬ Entry w b p o) :
    e.inputs.get? p = none := by
  obtain ⟨-, -, -, ⟨h1, -⟩, -⟩ := hc
  cases hi : e.inputs.get? p with
  | none => rfl
  | some i =>
    obtain ⟨-, o, ho, -⟩ := h1 p i hi
    exact absurd ho (he o)

/-- **C100** The booklets fail to be added only because a file cannot be read. -/
theorem booklets_only_missing_files (hreal : ∀ p, w.real p = none → w.present p = false) {err : Err}
    (hr : buildBooklets w root bs ev₀ = .error err) :
    ∃ path, err = .missingFile path ∧ (w.key path = none ∨ w.present path = false) :=
  (buildBooklets_safe w hreal root bs ev₀).1 err hr

/-! ## C101: the rest of the evaluation, and the UI -/

/-- **C101** The executions, the files, the destinations, the callbacks of the task are left as they are. -/
theorem task_undisturbed (h : Before w root ev₀) (hr : buildBooklets w root bs ev₀ = .ok ((), ev)) :
    (∀ e ∈ allExecs ev₀.dag, e ∈ allExecs ev.dag ∧ reportsOn ev e.uuid = reportsOn ev₀ e.uuid) ∧
    (∀ e ∈ allExecs ev.dag, e ∈ allExecs ev₀.dag ∨ e.tag = some "booklet") ∧
    (∀ f p, ev₀.dag.providedFiles.get? f = some p → ev.dag.providedFiles.get? f = some p) ∧
    (∀ f d, ev₀.writes.get? f = some d → ev.writes.get? f = some d) ∧
    (∃ l, ev.handlers = ev₀.handlers ++ l) ∧ ev.dag.config = ev₀.dag.config := by
  obtain ⟨i, x, -⟩ := buildBooklets_spec h.inv hr
  obtain ⟨-, -, -, r, es, -, q1, e1, t1, c1, c2⟩ := buildBooklets_does w root bs _ _ _ h.inv.boundG hr
  have nd : ((allExecs ev.dag).map (·.uuid)).Nodup := by simpa [execUuids] using i.execs
  refine ⟨fun e he => ⟨x.mem_exec he, ?_⟩, ?_, ?_, x.writes, x.handlers, x.config⟩
  · rw [reportsOn_eq, reportsOn_eq, q1, ofUuid_append, ofUuid_none (r := r), List.append_nil]
    rw [← c2]
    intro hu
    rw [e1, List.map_append, List.nodup_append] at nd
    refine nd.2.2 e.uuid ?_ e.uuid (List.mem_map.2 ⟨e, he, rfl⟩) rfl
    rw [List.map_reverse]
    exact List.mem_reverse.2 hu
  · intro e he
    rw [e1, List.mem_append, List.mem_reverse] at he
    rcases he with he | he
    · exact Or.inr (t1 e he)
    · exact Or.inl he
  · intro f p hp
    obtain ⟨p', h1, h2 | h2⟩ := x.provided f p hp
    · rw [h1, h2]
    · exact h2.elim

/-- **C101** The executions added are, in order, those of the pictures and of LaTeX; each one has its own name, the UI is told
about it before it runs, and is told what happens to it, as that and as nothing else. -/
theorem booklets_reported (h : Before w root ev₀) (hr : buildBooklets w root bs ev₀ = .ok ((), ev)) :
    ∃ l : List (Execution × Topic), allExecs ev.dag = (l.map (·.1)).reverse ++ allExecs ev₀.dag ∧
      ev.pending = ev₀.pending ++ l.map (·.2) ∧ l.map (·.2) = bs.flatMap (bookletMessages w) ∧
      (∀ p ∈ l, p.1.tag = some "booklet" ∧ reportsOn ev p.1.uuid = [p.2]) ∧
      ((allExecs ev.dag).map (·.uuid)).Nodup := by
  obtain ⟨i, x, -⟩ := buildBooklets_spec h.inv hr
  obtain ⟨-, -, -, r, es, p1, q1, e1, t1, c1, c2⟩ := buildBooklets_does w root bs _ _ _ h.inv.boundG hr
  have nd : ((allExecs ev.dag).map (·.uuid)).Nodup := by simpa [execUuids] using i.execs
  have len : es.length = r.length := by simpa using congrArg List.length c2
  have z1 : (es.zip (r.map (·.2))).map (·.1) = es := List.map_fst_zip (by simp [len])
  have z2 : (es.zip (r.map (·.2))).map (·.2) = r.map (·.2) := List.map_snd_zip (by simp [len])
  have hf : bookletTopics w = bookletMessages w := funext (bookletTopics_eq w)
  refine ⟨es.zip (r.map (·.2)), by rw [z1, e1], by rw [z2, p1], by rw [z2, c1, hf], ?_, nd⟩
  have nd' := nd
  rw [e1, List.map_append, List.nodup_append] at nd'
  have ndr : (r.map (·.1)).Nodup := by
    rw [← c2]
    have := nd'.1
    rw [List.map_reverse] at this
    exact ((List.reverse_perm _).nodup_iff).1 this
  intro p hp
  obtain ⟨k, hk, rfl⟩ := List.getElem_of_mem hp
  have hk1 : k < es.length := by simpa [len] using hk
  have hk2 : k < r.length := len ▸ hk1
  simp only [List.getElem_zip, List.getElem_map]
  have hu : es[k].uuid = r[k].1 := by
    have : (es.map (·.uuid))[k]'(by simpa using hk1) = (r.map (·.1))[k]'(by simpa using hk2) := by simp only [c2]
    simpa using this
  refine ⟨t1 _ (List.getElem_mem _), ?_⟩
  rw [reportsOn_eq, q1, ofUuid_append, hu, ofUuid_one ndr (List.getElem_mem _), ofUuid_none, List.nil_append]
  intro hm
  obtain ⟨q, hq, hq'⟩ := List.mem_map.1 hm
  have h1 := h.inv.handlers _ (mem_reportOf hq)
  simp only [execUuids, List.append_nil] at h1
  rw [hq', ← hu] at h1
  refine nd'.2.2 es[k].uuid ?_ _ (by simpa [execUuids] using h1) rfl
  rw [List.map_reverse]
  exact List.mem_reverse.2 (List.mem_map.2 ⟨_, List.getElem_mem _, rfl⟩)

/-! ## The previous pdf -/

/-- **C100** (partial: see `picture_uses_old_pdf`) The pdf of a booklet, left by a previous evaluation beside its source, is not
among the files of LaTeX: the compilation does not depend on whether it has already been done. -/
theorem own_pdf_not_copied_partial {b : Booklet} (hext : extOf b.dest = "pdf".toList) (hsrc : HasSource w b.dest)
    (hlogo : ∀ l, b.logo = some l → fileName l.toList ≠ fileName b.dest.toList)
    (htpl : ∀ f, b.dest ≠ w.dataDir ++ "/statements/" ++ f) (p : String) : ¬ Entry w b p (.copy b.dest) := by
  intro h
  generalize ho : Origin.copy b.dest = o at h
  cases h with
  | booklet => cases ho
  | statement h => cases ho
  | template h => exact htpl _ (Origin.copy.inj ho)
  | needed h hn =>
    cases hn with
    | picture h1 he hm => cases ho
    | file h1 he hp =>
      injection ho with ho
      rename_i s f
      have he' : extOf f = "pdf".toList := by rw [← extOf_join s.dir f, ← ho]; exact hext
      rcases hp he' with ⟨l, hl, hl'⟩ | hn
      · refine hlogo l hl ?_
        rw [hl', ho, fileName_join]
      · exact hn (ho ▸ hsrc)
    | gen h1 hf =>
      injection ho with ho
      rename_i s g
      have : extOf b.dest = extOf g := by
        have e : s.dir ++ "/../gen/" ++ g = joinPath (s.dir ++ "/../gen") g := by
          have hg : ¬ g.toList.head? = some '/' := by
            simp only [List.mem_cons, List.not_mem_nil, or_false] at h1
            rcases h1 with rfl | rfl | rfl <;> decide
          unfold joinPath
          rw [if_neg hg]
          simp only [String.append_assoc]
          rfl
        rw [ho, e, extOf_join]
      rw [hext] at this
      simp only [List.mem_cons, List.not_mem_nil, or_false] at h1
      rcases h1 with rfl | rfl | rfl <;> revert this <;> decide +kernel

/-! ## A concrete booklet -/

namespace DagSample

/-- A statement with a picture, a helper, its own old pdf, and a picture nobody uses. -/
def world : World :=
  { present := fun p => p ∈ ["/t/statement/english.tex", "/t/statement/fig.asy", "/t/statement/english.pdf"]
    key := fun _ => some ⟨"7"⟩
    files := fun d =>
      if d = "/t/statement" then ["english.pdf", "english.tex", "fig.asy", "img/map.pdf", "unused.asy"]
      else if d = "/data/statements" then ["cms-contest.cls"] else []
    isFile := fun p => p = "/t/statement/../gen/GEN"
    real := some
    hash := fun _ => ⟨"1"⟩
    dataDir := "/data" }

def heading : Heading := ⟨['s', 'u', 'm'], ['S', 'u', 'm'], [], [], [], [], [], []⟩

def statement : Statement := ⟨heading, "/t/statement", ['{', 'f', 'i', 'g', '.', 'p', 'd', 'f', '}']⟩

def booklet : Booklet := ⟨⟨[], false, false, [], [], [], [], [], [], []⟩, none, [statement], "/t/statement/english.pdf"⟩

/-- The configuration. -/
def cfg : DagConfig := { copyLogs := true }

/-- The DAG is built... -/
def built : Option Eval :=
  match buildBooklets world "/t" [booklet] (start 0 cfg) with
  | .ok (_, ev) => some ev
  | .error _ => none

/-- ... with three executions, reported in order. -/
example : (built.map (fun ev => (allExecs ev.dag).map (·.command))) =
    some [.system "latexmk", .system "pdfcrop", .system "asy"] := by decide +kernel
example : built.map (·.pending) = some
    [.bookletDependency "english.pdf" "fig.asy" 0, .bookletDependency "english.pdf" "fig.asy" 1, .booklet "english.pdf"] := by
  decide +kernel
example : bookletMessages world booklet =
    [.bookletDependency "english.pdf" "fig.asy" 0, .bookletDependency "english.pdf" "fig.asy" 1, .booklet "english.pdf"] := by
  decide +kernel
/-- The sandbox of LaTeX. -/
example : built.map (fun ev => (allExecs ev.dag).flatMap (fun e =>
      if e.command = .system "latexmk" then e.inputs.keys.reverse else [])) = some
    ["booklet.tex", "sum/statement.tex", "sum/english.tex", "sum/fig.pdf", "sum/img/map.pdf", "sum/GEN", "cms-contest.cls"] := by
  decide +kernel

/-- The result of a construction that succeeds. -/
theorem ok_of {r : Except Err (Unit × Eval)} {p : Eval → Bool}
    (h : (match r with | .ok (_, ev) => p ev | .error _ => false) = true) : ∃ ev, r = .ok ((), ev) ∧ p ev = true := by
  match r, h with
  | .ok ((), ev), h => exact ⟨ev, rfl, h⟩

/-- The hypotheses of the theorems hold. -/
theorem holds : ∃ ev, Before world "/t" (start 0 cfg) ∧ buildBooklets world "/t" [booklet] (start 0 cfg) = .ok ((), ev) := by
  obtain ⟨ev, he, -⟩ := ok_of (r := buildBooklets world "/t" [booklet] (start 0 cfg)) (p := fun _ => true) (by decide +kernel)
  exact ⟨ev, .empty _ _, he⟩

example : ∃ ev e, buildBooklets world "/t" [booklet] (start 0 cfg) = .ok ((), ev) ∧ Compiles world "/t" ev booklet e := by
  obtain ⟨ev, h1, h2⟩ := holds
  obtain ⟨e, he⟩ := booklets_compiled h1 h2 (List.mem_singleton.2 rfl)
  exact ⟨ev, e, h2, he⟩

/-- The old pdf is not a file of LaTeX... -/
example (p : String) : ¬ Entry world booklet p (.copy "/t/statement/english.pdf") :=
  own_pdf_not_copied_partial (b := booklet) (by decide +kernel)
    ⟨"/t/statement/english.pdf", rfl, Or.inr (by decide +kernel)⟩ (by intro l hl; cases hl)
    (by
      intro f hf
      have := congrArg String.toList hf
      simp only [String.toList_append] at this
      have e1 : booklet.dest.toList = ['/', 't'] ++ (booklet.dest.toList.drop 2) := by decide +kernel
      have e2 : world.dataDir.toList = ['/', 'd', 'a', 't', 'a'] := by decide +kernel
      rw [e1, e2] at this
      simp at this) p

/-- A sandbox path with one origin: the picture. -/
example : Entry world booklet "sum/fig.pdf" (.picture "/t/statement/fig.asy") := by
  have := Entry.needed (w := world) (b := booklet) (s := statement) (List.mem_singleton.2 rfl)
    (Needed.picture (w := world) (logo := booklet.logo) (s := statement) (f := "fig.asy") (by decide +kernel) (by decide +kernel)
      ⟨['{'], ['}'], by decide +kernel⟩)
  have e1 : statement.name ++ "/" ++ withExt "fig.asy" "pdf" = "sum/fig.pdf" := by decide +kernel
  have e2 : joinPath statement.dir "fig.asy" = "/t/statement/fig.asy" := by decide +kernel
  rwa [e1, e2] at this

/-- A `statement.tex` in the directory of the statement. -/
def overridden : World := { world with files := fun d => if d = "/t/statement" then ["statement.tex"] else [] }

/-- Its copy is in a sandbox. -/
def hasCopy (ev : Eval) (e : Execution) : Bool :=
  match e.inputs.get? "sum/statement.tex" with
  | some i => decide (ev.dag.providedFiles.get? i.file = some ⟨⟨"7"⟩, none, some "/t/statement/statement.tex"⟩)
  | none => false

end DagSample

/-- **C100** fails for the pictures: the sandbox of Asymptote has the pdf of the booklet itself, as the last evaluation left it,
so the picture is drawn again (and LaTeX runs again) after every change of the booklet. -/
theorem picture_uses_old_pdf : ∃ (w : World) (b : Booklet) (s : Statement) (src : String), s ∈ b.statements ∧
    HasSource w b.dest ∧ Entry w b "sum/fig.pdf" (.picture src) ∧ AsyEntry w src "english.pdf" b.dest := by
  refine ⟨DagSample.world, DagSample.booklet, DagSample.statement, "/t/statement/fig.asy", List.mem_singleton.2 rfl,
    ⟨"/t/statement/english.pdf", rfl, Or.inr (by decide +kernel)⟩, ?_, ?_⟩
  · have := Entry.needed (w := DagSample.world) (b := DagSample.booklet) (s := DagSample.statement) (List.mem_singleton.2 rfl)
      (Needed.picture (w := DagSample.world) (logo := DagSample.booklet.logo) (s := DagSample.statement) (f := "fig.asy")
        (by decide +kernel) (by decide +kernel) ⟨['{'], ['}'], by decide +kernel⟩)
    have e1 : DagSample.statement.name ++ "/" ++ withExt "fig.asy" "pdf" = "sum/fig.pdf" := by decide +kernel
    have e2 : joinPath DagSample.statement.dir "fig.asy" = "/t/statement/fig.asy" := by decide +kernel
    rwa [e1, e2] at this
  · have := AsyEntry.sibling (w := DagSample.world) (src := "/t/statement/fig.asy") (f := "english.pdf") (by decide +kernel)
      (by decide +kernel)
    have e : joinPath (parentOf "/t/statement/fig.asy") "english.pdf" = DagSample.booklet.dest := by decide +kernel
    rwa [e] at this

/-- The generated statement is not protected: a file `statement.tex` in the directory of the statement takes its place in the
sandbox. -/
theorem statement_overridden : ∃ (w : World) (b : Booklet) (s : Statement), s ∈ b.statements ∧
    ∃ ev e i, buildBooklets w "/t" [b] (start 0 {}) = .ok ((), ev) ∧ e ∈ allExecs ev.dag ∧
      e.inputs.get? (s.name ++ "/statement.tex") = some i ∧ CopyOf w.toFS ev i.file "/t/statement/statement.tex" := by
  obtain ⟨ev, he, hk⟩ := DagSample.ok_of (r := buildBooklets DagSample.overridden "/t" [DagSample.booklet] (start 0 {}))
    (p := fun ev => (allExecs ev.dag).any (DagSample.hasCopy ev)) (by decide +kernel)
  refine ⟨DagSample.overridden, DagSample.booklet, DagSample.statement, List.mem_singleton.2 rfl, ev, ?_⟩
  obtain ⟨e, hm, hk⟩ := List.any_eq_true.1 hk
  have en : DagSample.statement.name ++ "/statement.tex" = "sum/statement.tex" := by decide +kernel
  rw [en]
  unfold DagSample.hasCopy at hk
  split at hk
  · next i hi => exact ⟨e, i, he, hm, hi, _, rfl, of_decide_eq_true hk⟩
  · cases hk

end TM.Booklet
