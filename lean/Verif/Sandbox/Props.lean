import Verif.Sandbox.SetupLemmas
/-!
# The files of the sandboxes

C83: when a sandbox is ready it has exactly the files of the execution.  C84: the files of the store do not change.
C85: what a program writes is seen only by itself.
-/
namespace TM.Sandbox
open TM

/-- **C83** When a sandbox has been prepared, however its preparation was interleaved with that of other sandboxes,
with the programs that run in them (as long as they change the mode only of files they may write) and with the use
of the store, it has the input files of the execution with the content they have in the store, protected from
writing, and an empty file, that can be written, for each output and for each stream to capture; nothing else. -/
theorem sandbox_files_exact {lk : Bool} {h₀ h : List Op} {w₀ w : World} (hr₀ : Run Polite (World.init lk) h₀ w₀)
    (hr : Run Polite w₀ h w) {b : Nat} {e : Execution} {deps : FileUuid → Option FileStoreKey} {ops : List Op}
    (hops : setupOps b e deps = some ops) (hf : h.filter (fun op => decide (op.box? = some b)) = ops)
    (hin : e.inputs.Wf) (hout : e.outputs.Wf) {content : FileUuid → Bytes}
    (hd : ∀ f ∈ e.dependencies, ∀ key, deps f = some key →
      w₀.content key = some (content f) ∧ Op.removeFile key ∉ h) :
    (∀ p i, e.inputs.get? p = some i → ∃ x, w.file b (.file p) = some ⟨content i.file, false, x⟩) ∧
    (∀ p, p ∈ e.outputs.keys → w.file b (.file p) = some ⟨[], true, false⟩) ∧
    (∀ p, p ∉ e.inputs.keys → p ∉ e.outputs.keys → w.file b (.file p) = none) ∧
    (∀ f, e.stdin = some f → ∃ x, w.file b .stdin = some ⟨content f, false, x⟩) ∧
    (e.stdin = none → w.file b .stdin = none) ∧
    w.file b .stdout = (if e.stdout.isSome then some ⟨[], true, false⟩ else none) ∧
    w.file b .stderr = (if e.stderr.isSome then some ⟨[], true, false⟩ else none) ∧
    (∀ p, p ∈ e.inputs.keys → p ∉ e.outputs.keys) := by
  have hI0 := hr₀.inv (inv_init lk)
  obtain ⟨sin, ins, h1, h2, h3⟩ := setupOps_parts hops
  subst h3
  have hpl0 := plain_setup hops
  obtain ⟨g₁, g, w₁, rfl, hI, hempty, hrg, hfg⟩ := hr.started hI0 hf
  have hpl := mem_of_about hfg hpl0
  obtain ⟨w', hra, hrb⟩ := hr.split
  cases hrb with
  | cons ha hp he hrc =>
  rename_i w1'
  have hc1 : ∀ f ∈ e.dependencies, ∀ key, deps f = some key →
      w1'.content key = some (content f) ∧ Op.removeFile key ∉ g := by
    intro f hf' key hk
    obtain ⟨hc, hn⟩ := hd f hf' key hk
    have hn' := hn
    simp only [List.mem_append, List.mem_cons, not_or] at hn
    have hc' := hra.content_keep hI0 hc hn.1
    exact ⟨(step_of ha hp he).keep_store (hra.inv hI0) key _ hc' (fun h => hn.2.1 h.symm), hn.2.2⟩
  have hI1 : Inv w1' := (step_of ha hp he).inv (hra.inv hI0)
  have hempty1 : ∀ pl, w1'.at b pl = none := by
    intro pl
    simp only [Op.apply] at he
    split at he
    · simp at he
    · simp only [Option.some.injEq] at he
      subst he
      simp [World.at, upd]
  clear hempty hrg hI w₁
  have hon : ∀ pl, g.filter (Op.on b pl) = sin.filter (Op.on b pl) ++ (streamOps b .stdout e.stdout).filter (Op.on b pl) ++
      (streamOps b .stderr e.stderr).filter (Op.on b pl) ++ ins.filter (Op.on b pl) ++
      (e.outputs.map (fun p => Op.touch b (.file p.1))).filter (Op.on b pl) := by
    intro pl
    rw [← filter_on_about, hfg]
    simp only [List.filter_append]
  have key_in : ∀ p i, e.inputs.get? p = some i → ∃ key, deps i.file = some key ∧
      w1'.content key = some (content i.file) ∧ Op.removeFile key ∉ g ∧ ∃ t,
      g.filter (Op.on b (.file p)) = .link b (.file p) key :: .chmod b (.file p) i.executable :: t ∧
      (p ∈ e.outputs.keys → Op.touch b (.file p) ∈ t) := by
    intro p i hpi
    obtain ⟨key, hk, hfi⟩ := filter_inputOps h2 hin hpi
    have hm : i.file ∈ e.dependencies := by
      unfold Execution.dependencies
      exact List.mem_append_right _ (List.mem_map_of_mem (AMap.mem_of_get? hpi))
    obtain ⟨c1, c2⟩ := hc1 _ hm key hk
    refine ⟨key, hk, c1, c2, (e.outputs.map (fun p => Op.touch b (.file p.1))).filter (Op.on b (.file p)), ?_, ?_⟩
    · rw [hon, filter_stdinOps h1, filter_streamOps, filter_streamOps, hfi]
      simp [writeOps]
    · intro hpo
      rw [filter_outputs b _ hout hpo]
      simp
  have hdisj : ∀ p, p ∈ e.inputs.keys → p ∉ e.outputs.keys := by
    intro p hpi hpo
    obtain ⟨i, hpi⟩ := AMap.mem_keys_iff.1 hpi
    obtain ⟨key, hk, c1, c2, t, ht, htouch⟩ := key_in p i hpi
    obtain ⟨g₁', g₂', rfl, hn, -, hrest⟩ := List.filter_eq_cons_iff.1 ht
    have hmem : Op.touch b (.file p) ∈ g₂' := by
      have : Op.touch b (.file p) ∈ g₂'.filter (Op.on b (.file p)) := by
        rw [hrest]; exact List.mem_cons_of_mem _ (htouch hpo)
      exact (List.mem_filter.1 this).1
    rw [show g₁' ++ Op.link b (.file p) key :: g₂' = (g₁' ++ [Op.link b (.file p) key]) ++ g₂' by simp] at hrc
    obtain ⟨wm, rm1, rm2⟩ := hrc.split
    have hro : HasRO wm b (.file p) (content i.file) := by
      refine rm1.linked (key := key) (ops := []) hI1 ?_ ?_ c1 ?_
      · intro op hop
        refine hpl op ?_
        simp only [List.mem_append, List.mem_cons, List.not_mem_nil, or_false] at hop ⊢
        rcases hop with hop | hop
        · exact .inl hop
        · exact .inr (.inl hop)
      · rw [List.filter_append, List.filter_eq_nil_iff.2 hn]
        simp [Op.on, Op.place?]
      · intro hm
        apply c2
        simp only [List.mem_append, List.mem_cons, List.not_mem_nil, or_false] at hm ⊢
        rcases hm with hm | hm
        · exact .inl hm
        · exact .inr (.inl hm)
    exact Run.no_touch (rm1.inv hI1) hro rm2
      (fun op hop => hpl op (List.mem_append_right _ (List.mem_cons_of_mem _ hop))) hmem
  have ro : ∀ pl c, HasRO w b pl c → ∃ x, w.file b pl = some ⟨c, false, x⟩ := by
    rintro pl c ⟨i, hi, hc, hw⟩
    refine ⟨(w.inode i).exec, ?_⟩
    simp only [World.file, hi, Option.map_some, Option.some.injEq]
    cases hn : w.inode i with
    | mk cc ww xx =>
      rw [hn] at hc hw
      simp only at hc hw ⊢
      rw [hc, hw]
  refine ⟨?_, ?_, ?_, ?_, ?_, ?_, ?_, hdisj⟩
  · intro p i hpi
    obtain ⟨key, hk, c1, c2, t, ht, -⟩ := key_in p i hpi
    exact ro _ _ (hrc.linked hI1 hpl ht c1 c2)
  · intro p hpo
    refine hrc.touched hI1 hpl ?_
    rw [hon, filter_stdinOps h1, filter_streamOps, filter_streamOps, filter_inputOps_other h2, filter_outputs b _ hout hpo]
    · simp
    · intro q hq
      simp only [Place.file.injEq] at hq
      subst hq
      exact fun hm => hdisj _ hm hpo
  · intro p hpi hpo
    refine hrc.untouched hI1 (hempty1 _) ?_
    rw [hon, filter_stdinOps h1, filter_streamOps, filter_streamOps, filter_inputOps_other h2, filter_outputs_other]
    · simp
    · intro q hq; simp only [Place.file.injEq] at hq; subst hq; exact hpo
    · intro q hq; simp only [Place.file.injEq] at hq; subst hq; exact hpi
  · intro f hfs
    rw [hfs] at h1
    simp only [stdinOps, Option.map_eq_some_iff] at h1
    obtain ⟨key, hk, hsin⟩ := h1
    have hm : f ∈ e.dependencies := by simp [Execution.dependencies, hfs]
    obtain ⟨c1, c2⟩ := hc1 f hm key hk
    refine ro _ _ (hrc.linked (key := key) (ops := [.chmod b .stdin false]) hI1 hpl ?_ c1 c2)
    rw [hon, ← hsin, filter_writeOps, filter_streamOps, filter_streamOps, filter_inputOps_other h2, filter_outputs_other]
    · simp [writeOps]
    · intro q hq; simp at hq
    · intro q hq; simp at hq
  · intro hfs
    refine hrc.untouched hI1 (hempty1 _) ?_
    rw [hfs] at h1
    simp only [stdinOps, Option.some.injEq] at h1
    rw [hon, ← h1, filter_streamOps, filter_streamOps, filter_inputOps_other h2, filter_outputs_other]
    · simp
    · intro q hq; simp at hq
    · intro q hq; simp at hq
  · have hx : g.filter (Op.on b .stdout) = streamOps b .stdout e.stdout := by
      rw [hon, filter_stdinOps h1, filter_streamOps, filter_streamOps, filter_inputOps_other h2, filter_outputs_other]
      · simp
      · intro q hq; simp at hq
      · intro q hq; simp at hq
    cases hs : e.stdout with
    | none => rw [hs] at hx; exact hrc.untouched hI1 (hempty1 _) hx
    | some f => rw [hs] at hx; exact hrc.touched hI1 hpl hx
  · have hx : g.filter (Op.on b .stderr) = streamOps b .stderr e.stderr := by
      rw [hon, filter_stdinOps h1, filter_streamOps, filter_streamOps, filter_inputOps_other h2, filter_outputs_other]
      · simp
      · intro q hq; simp at hq
      · intro q hq; simp at hq
    cases hs : e.stderr with
    | none => rw [hs] at hx; exact hrc.untouched hI1 (hempty1 _) hx
    | some f => rw [hs] at hx; exact hrc.touched hI1 hpl hx

/-- A key of the store. -/
def k (n : Nat) : FileStoreKey := if n = 10 then ⟨"ten"⟩ else if n = 30 then ⟨"thirty"⟩ else ⟨"fifty"⟩

/-- A concrete history: two sandboxes are prepared at the same time, they have the same input; one program has already
written its output. -/
def exampleExec : Execution :=
  { uuid := 0, stdin := some 1, stdout := some 2, inputs := [("a", ⟨3, true⟩), ("b", ⟨1, false⟩)], outputs := [("o", 4)] }

def exampleKeys : FileUuid → Option FileStoreKey := fun f => if f = 1 then some (k 10) else if f = 3 then some (k 30) else none

def exampleHistory : List Op :=
  [.start 0 true, .start 7 false, .link 7 (.file "x") (k 10), .link 0 .stdin (k 10), .chmod 7 (.file "x") false, .chmod 0 .stdin false,
   .touch 7 (.file "y"), .touch 0 .stdout, .write 7 (.file "y") [1, 2], .link 0 (.file "a") (k 30), .chmod 0 (.file "a") true,
   .link 0 (.file "b") (k 10), .storeFile (k 50) [1, 2], .chmod 0 (.file "b") false, .touch 0 (.file "o"), .finish 7]

/-- The state after a list of operations. -/
def World.after (w : World) : List Op → Option World
  | [] => some w
  | op :: h => (op.apply w).bind (fun w => w.after h)

theorem run_after {P : World → Op → Prop} {w w' : World} {h : List Op} (hp : ∀ w, ∀ op ∈ h, Allowed w op ∧ P w op)
    (hw : w.after h = some w') : Run P w h w' := by
  induction h generalizing w with
  | nil => simp only [World.after, Option.some.injEq] at hw; subst hw; exact .nil w
  | cons op h ih =>
    simp only [World.after, Option.bind_eq_some_iff] at hw
    obtain ⟨w1, h1, h2⟩ := hw
    exact .cons (hp w op List.mem_cons_self).1 (hp w op List.mem_cons_self).2 h1
      (ih (fun w op hop => hp w op (List.mem_cons_of_mem _ hop)) h2)

/-- The operations that are always allowed and polite. -/
def Op.simple : Op → Bool
  | .removeFile _ | .progChmod _ _ _ _ => false
  | _ => true

theorem simple_ok {op : Op} (h : op.simple = true) (w : World) : Allowed w op ∧ Polite w op := by
  cases op <;> simp_all [Op.simple, Allowed, Polite]

def exampleStart : World := ((World.init true).after [.storeFile (k 10) [5], .storeFile (k 30) [6, 6]]).getD (World.init true)

def exampleEnd : World := (exampleStart.after exampleHistory).getD (World.init true)

example : Run Polite (World.init true) [.storeFile (k 10) [5], .storeFile (k 30) [6, 6]] exampleStart ∧
    Run Polite exampleStart exampleHistory exampleEnd ∧
    setupOps 0 exampleExec exampleKeys = some (exampleHistory.filter (fun op => decide (op.box? = some 0))) ∧
    exampleEnd.file 0 (.file "a") = some ⟨[6, 6], false, true⟩ ∧ exampleEnd.file 0 .stdin = some ⟨[5], false, false⟩ ∧
    exampleEnd.content (k 50) = some [1, 2] := by
  refine ⟨run_after (fun w op hop => simple_ok (List.all_eq_true.1 (?_ : List.all _ Op.simple = true) op hop) w) rfl,
    run_after (fun w op hop => simple_ok (List.all_eq_true.1 (?_ : List.all _ Op.simple = true) op hop) w) rfl, ?_⟩
  · decide
  · decide
  · decide +kernel

/-- **C83** An execution that has an output file with the path of an input file (for instance a task whose `infile` and
`outfile` are the same) cannot be prepared: there is no history with its whole preparation. -/
theorem output_over_input_fails {lk : Bool} {h₀ h : List Op} {w₀ w : World} (hr₀ : Run Polite (World.init lk) h₀ w₀)
    {b : Nat} {e : Execution} {deps : FileUuid → Option FileStoreKey} {ops : List Op}
    (hops : setupOps b e deps = some ops) (hf : h.filter (fun op => decide (op.box? = some b)) = ops)
    (hin : e.inputs.Wf) (hout : e.outputs.Wf) {content : FileUuid → Bytes}
    (hd : ∀ f ∈ e.dependencies, ∀ key, deps f = some key →
      w₀.content key = some (content f) ∧ Op.removeFile key ∉ h)
    {p : String} (hpi : p ∈ e.inputs.keys) (hpo : p ∈ e.outputs.keys) : ¬ Run Polite w₀ h w := by
  intro hr
  exact (sandbox_files_exact hr₀ hr hops hf hin hout hd).2.2.2.2.2.2.2 p hpi hpo

example : ∃ ops, setupOps 0 { uuid := 0, inputs := [("data.txt", ⟨1, false⟩)], outputs := [("data.txt", 2)] }
    (fun _ => some (k 10)) = some ops ∧ ops = [.start 0 true, .link 0 (.file "data.txt") (k 10), .chmod 0 (.file "data.txt") false,
      .touch 0 (.file "data.txt")] := ⟨_, rfl, by decide⟩

end TM.Sandbox
