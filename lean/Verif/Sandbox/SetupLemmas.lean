import Verif.Sandbox.Lemmas
/-! # Lemmas about the preparation of a sandbox -/
namespace TM.Sandbox
open TM

/-- The operations about a place. -/
def Op.on (b : Nat) (pl : Place) (op : Op) : Bool := decide (op.place? = some (b, pl))

/-- The operations about a sandbox. -/
def Op.about (b : Nat) (op : Op) : Bool := decide (op.box? = some b)

theorem about_of_on {b : Nat} {pl : Place} {op : Op} (h : op.on b pl = true) : op.about b = true := by
  unfold Op.on Op.about at *
  simp only [decide_eq_true_eq] at *
  cases op <;> simp_all [Op.place?, Op.box?]

theorem filter_on_about (b : Nat) (pl : Place) (h : List Op) :
    (h.filter (Op.about b)).filter (Op.on b pl) = h.filter (Op.on b pl) := by
  rw [List.filter_filter]
  congr 1
  funext op
  cases ho : op.on b pl with
  | false => simp
  | true => simp [about_of_on ho]

theorem filter_writeOps (b : Nat) (pl pl' : Place) (key : FileStoreKey) (x : Bool) :
    (writeOps b pl' key x).filter (Op.on b pl) = if pl' = pl then writeOps b pl' key x else [] := by
  by_cases h : pl' = pl <;> simp [writeOps, Op.on, Op.place?, h]

theorem filter_stdinOps {b : Nat} {deps : FileUuid → Option FileStoreKey} {f : Option FileUuid} {ops : List Op}
    (h : stdinOps b deps f = some ops) (pl : Place) :
    ops.filter (Op.on b pl) = if pl = .stdin then ops else [] := by
  cases f with
  | none => simp only [stdinOps, Option.some.injEq] at h; subst h; simp
  | some f =>
    simp only [stdinOps, Option.map_eq_some_iff] at h
    obtain ⟨key, -, rfl⟩ := h
    rw [filter_writeOps]
    by_cases hp : pl = .stdin
    · simp [hp]
    · rw [if_neg (fun e => hp e.symm), if_neg hp]

theorem filter_streamOps (b : Nat) (pl pl' : Place) (f : Option FileUuid) :
    (streamOps b pl' f).filter (Op.on b pl) = if pl' = pl then streamOps b pl' f else [] := by
  by_cases h : pl' = pl <;> cases f <;> simp [streamOps, Op.on, Op.place?, h]

theorem filter_inputOps_other {b : Nat} {deps : FileUuid → Option FileStoreKey} {ins : AMap String ExecutionInput}
    {ops : List Op} (h : inputOps b deps ins = some ops) (pl : Place) (hp : ∀ p, pl = .file p → p ∉ ins.keys) :
    ops.filter (Op.on b pl) = [] := by
  induction ins generalizing ops with
  | nil => simp only [inputOps, Option.some.injEq] at h; subst h; rfl
  | cons a rest ih =>
    obtain ⟨p, i⟩ := a
    simp only [inputOps, Option.bind_eq_some_iff, Option.map_eq_some_iff] at h
    obtain ⟨key, -, ops', h', rfl⟩ := h
    rw [List.filter_append, filter_writeOps, if_neg, ih h' (fun q hq => ?_)]
    · rfl
    · have := hp q hq
      simp only [AMap.keys, List.map_cons, List.mem_cons, not_or] at this
      exact this.2
    · intro e
      have := hp p e.symm
      simp [AMap.keys] at this

theorem filter_inputOps {b : Nat} {deps : FileUuid → Option FileStoreKey} {ins : AMap String ExecutionInput}
    {ops : List Op} (h : inputOps b deps ins = some ops) (hw : ins.Wf) {p : String} {i : ExecutionInput}
    (hp : ins.get? p = some i) :
    ∃ key, deps i.file = some key ∧ ops.filter (Op.on b (.file p)) = writeOps b (.file p) key i.executable := by
  induction ins generalizing ops with
  | nil => simp at hp
  | cons a rest ih =>
    obtain ⟨q, j⟩ := a
    simp only [inputOps, Option.bind_eq_some_iff, Option.map_eq_some_iff] at h
    obtain ⟨key, hk, ops', h', rfl⟩ := h
    simp only [AMap.Wf, AMap.keys, List.map_cons, List.nodup_cons] at hw
    rw [AMap.get?_cons] at hp
    split at hp
    · rename_i e
      simp only [Option.some.injEq] at hp
      subst hp
      subst e
      refine ⟨key, hk, ?_⟩
      rw [List.filter_append, filter_writeOps, if_pos rfl, filter_inputOps_other h', List.append_nil]
      intro r hr
      simp only [Place.file.injEq] at hr
      subst hr
      exact hw.1
    · rename_i hne
      obtain ⟨key', hk', he⟩ := ih h' hw.2 hp
      refine ⟨key', hk', ?_⟩
      rw [List.filter_append, filter_writeOps, if_neg, he]
      · rfl
      · intro e
        simp only [Place.file.injEq] at e
        exact hne e

theorem filter_outputs_other (b : Nat) (outs : AMap String FileUuid) (pl : Place)
    (hp : ∀ p, pl = .file p → p ∉ outs.keys) :
    (outs.map (fun p => Op.touch b (.file p.1))).filter (Op.on b pl) = [] := by
  rw [List.filter_eq_nil_iff]
  intro op hop
  simp only [List.mem_map] at hop
  obtain ⟨q, hq, rfl⟩ := hop
  simp only [Op.on, Op.place?, decide_eq_true_eq, Option.some.injEq, Prod.mk.injEq, true_and]
  intro e
  exact hp q.1 e.symm (List.mem_map_of_mem hq)

theorem filter_outputs (b : Nat) (outs : AMap String FileUuid) (hw : outs.Wf) {p : String} (hp : p ∈ outs.keys) :
    (outs.map (fun p => Op.touch b (.file p.1))).filter (Op.on b (.file p)) = [.touch b (.file p)] := by
  induction outs with
  | nil => simp [AMap.keys] at hp
  | cons a rest ih =>
    obtain ⟨q, u⟩ := a
    simp only [AMap.Wf, AMap.keys, List.map_cons, List.nodup_cons] at hw
    simp only [AMap.keys, List.map_cons, List.mem_cons] at hp
    rw [List.map_cons, List.filter_cons]
    by_cases h : p = q
    · subst h
      rw [if_pos (by simp [Op.on, Op.place?]), filter_outputs_other]
      intro r hr
      simp only [Place.file.injEq] at hr
      subst hr
      exact hw.1
    · rw [if_neg (by simp [Op.on, Op.place?]; exact fun e => h e.symm)]
      exact ih hw.2 (hp.resolve_left h)

/-- The parts of the preparation. -/
theorem setupOps_parts {b : Nat} {e : Execution} {deps : FileUuid → Option FileStoreKey} {ops : List Op}
    (h : setupOps b e deps = some ops) : ∃ sin ins, stdinOps b deps e.stdin = some sin ∧
      inputOps b deps e.inputs = some ins ∧ ops = .start b e.limits.readOnly :: (sin ++ streamOps b .stdout e.stdout ++
        streamOps b .stderr e.stderr ++ ins ++ e.outputs.map (fun p => Op.touch b (.file p.1))) := by
  simp only [setupOps, Option.bind_eq_some_iff, Option.map_eq_some_iff] at h
  obtain ⟨sin, h1, ins, h2, h3⟩ := h
  exact ⟨sin, ins, h1, h2, h3.symm⟩

/-- All the operations after the first are about a place of the sandbox, none of them removes files. -/
def Plain (b : Nat) (op : Op) : Prop := ¬ (op.box? = some b ∧ op.place? = none) ∧ ∀ pl, op ≠ .unlink b pl

theorem plain_writeOps {b : Nat} {pl : Place} {key : FileStoreKey} {x : Bool} : ∀ op ∈ writeOps b pl key x, Plain b op := by
  intro op hop
  simp only [writeOps, List.mem_cons, List.not_mem_nil, or_false] at hop
  rcases hop with rfl | rfl <;> simp [Plain, Op.box?, Op.place?]

theorem plain_inputOps {b : Nat} {deps : FileUuid → Option FileStoreKey} {ins : AMap String ExecutionInput}
    {ops : List Op} (h : inputOps b deps ins = some ops) : ∀ op ∈ ops, Plain b op := by
  induction ins generalizing ops with
  | nil => simp only [inputOps, Option.some.injEq] at h; subst h; simp
  | cons a rest ih =>
    obtain ⟨q, j⟩ := a
    simp only [inputOps, Option.bind_eq_some_iff, Option.map_eq_some_iff] at h
    obtain ⟨key, hk, ops', h', rfl⟩ := h
    intro op hop
    rcases List.mem_append.1 hop with hop | hop
    · exact plain_writeOps op hop
    · exact ih h' op hop

theorem plain_setup {b : Nat} {e : Execution} {deps : FileUuid → Option FileStoreKey} {rest : List Op} {op0 : Op}
    (h : setupOps b e deps = some (op0 :: rest)) : ∀ op ∈ rest, Plain b op := by
  obtain ⟨sin, ins, h1, h2, h3⟩ := setupOps_parts h
  simp only [List.cons.injEq] at h3
  obtain ⟨-, rfl⟩ := h3
  intro op hop
  simp only [List.mem_append] at hop
  rcases hop with (((hop | hop) | hop) | hop) | hop
  · cases hs : e.stdin with
    | none => rw [hs] at h1; simp only [stdinOps, Option.some.injEq] at h1; subst h1; simp at hop
    | some f =>
      rw [hs] at h1
      simp only [stdinOps, Option.map_eq_some_iff] at h1
      obtain ⟨key, -, rfl⟩ := h1
      exact plain_writeOps op hop
  · cases hs : e.stdout <;> simp [hs, streamOps] at hop
    subst hop; simp [Plain, Op.box?, Op.place?]
  · cases hs : e.stderr <;> simp [hs, streamOps] at hop
    subst hop; simp [Plain, Op.box?, Op.place?]
  · exact plain_inputOps h2 op hop
  · simp only [List.mem_map] at hop
    obtain ⟨q, hq, rfl⟩ := hop
    simp [Plain, Op.box?, Op.place?]

/-! ## Histories in which the preparation of a sandbox is interleaved -/

/-- After the first operation of the sandbox: the directory is empty. -/
theorem Run.started {w w' : World} {h : List Op} {b : Nat} {ro : Bool} {rest : List Op} (hI : Inv w)
    (hr : Run Polite w h w') (hf : h.filter (Op.about b) = .start b ro :: rest) :
    ∃ h₁ h₂ w₁, h = h₁ ++ .start b ro :: h₂ ∧ Inv w₁ ∧ (∀ pl, w₁.at b pl = none) ∧ Run Polite w₁ h₂ w' ∧
      h₂.filter (Op.about b) = rest := by
  obtain ⟨h₁, h₂, rfl, hn, -, hrest⟩ := List.filter_eq_cons_iff.1 hf
  obtain ⟨w0, r1, r2⟩ := hr.split
  cases r2 with
  | cons ha hp he r3 =>
    rename_i w1
    have hI0 := r1.inv hI
    have st := step_of ha hp he
    refine ⟨h₁, h₂, w1, rfl, st.inv hI0, ?_, r3, hrest⟩
    intro pl
    simp only [Op.apply] at he
    split at he
    · simp at he
    · simp only [Option.some.injEq] at he
      subst he
      simp [World.at, upd]

theorem mem_of_about {b : Nat} {h rest : List Op} (hf : h.filter (Op.about b) = rest) (hpl : ∀ op ∈ rest, Plain b op) :
    ∀ op ∈ h, Plain b op := by
  intro op hop
  by_cases ha : op.about b = true
  · exact hpl op (hf ▸ List.mem_filter.2 ⟨hop, ha⟩)
  · have hb : op.box? ≠ some b := by simpa [Op.about] using ha
    refine ⟨fun h => hb h.1, ?_⟩
    rintro pl rfl
    simp [Op.box?] at hb

/-- A file is given: at its place there is the content of the store, and it cannot be written. -/
theorem Run.linked {w w' : World} {h : List Op} {b : Nat} {pl : Place} {key : FileStoreKey} {ops : List Op} {c : Bytes}
    (hI : Inv w) (hr : Run Polite w h w') (hpl : ∀ op ∈ h, Plain b op)
    (hf : h.filter (Op.on b pl) = .link b pl key :: ops) (hc : w.content key = some c)
    (hk : Op.removeFile key ∉ h) : HasRO w' b pl c := by
  obtain ⟨h₁, h₂, rfl, hn, -, hrest⟩ := List.filter_eq_cons_iff.1 hf
  obtain ⟨w0, r1, r2⟩ := hr.split
  cases r2 with
  | cons ha hp he r3 =>
    rename_i w1
    have hI0 := r1.inv hI
    have hc0 := r1.content_keep hI hc (fun hm => hk (List.mem_append_left _ hm))
    have st := step_of ha hp he
    refine r3.keep_ro (st.inv hI0) ?_ ?_
    · unfold World.content at hc0
      cases hs : w0.store key with
      | none => simp [hs] at hc0
      | some i =>
        simp only [hs, Option.map_some, Option.some.injEq] at hc0
        have hro := (hI0.stored key i hs).2
        cases hb : w0.box b with
        | none => simp [Op.apply, hs, hb] at he
        | some bx =>
          simp only [Op.apply, hs, hb] at he
          cases hj : bx.files pl with
          | some j =>
            rw [hj] at he
            simp only at he
            split at he
            · simp only [Option.some.injEq] at he
              subst he
              refine ⟨j, ?_, ?_⟩
              · simp [World.at, hb, hj]
              · simp [upd, hc0, hro]
            · simp at he
          | none =>
            rw [hj] at he
            simp only at he
            split at he
            · simp only [Option.some.injEq] at he
              subst he
              refine ⟨i, ?_, ?_⟩
              · rw [at_setFile _ _ _ _ _ hb]; simp
              · simp [World.setFile, hc0, hro]
            · simp only [Option.some.injEq] at he
              subst he
              refine ⟨w0.next, ?_, ?_⟩
              · show (w0.setFile b bx pl (some w0.next)).at b pl = _
                rw [at_setFile _ _ _ _ _ hb]; simp
              · simp [World.setFile, upd, hc0, hro]
    · intro op hop
      have := hpl op (List.mem_append_right _ (List.mem_cons_of_mem _ hop))
      exact ⟨this.1, this.2 pl⟩

/-- A file is made: it is empty and can be written. -/
theorem Run.touched {w w' : World} {h : List Op} {b : Nat} {pl : Place} (hI : Inv w) (hr : Run Polite w h w')
    (hpl : ∀ op ∈ h, Plain b op) (hf : h.filter (Op.on b pl) = [.touch b pl]) :
    w'.file b pl = some ⟨[], true, false⟩ := by
  obtain ⟨h₁, h₂, rfl, hn, -, hrest⟩ := List.filter_eq_cons_iff.1 hf
  obtain ⟨w0, r1, r2⟩ := hr.split
  cases r2 with
  | cons ha hp he r3 =>
    rename_i w1
    have hI0 := r1.inv hI
    have st := step_of ha hp he
    refine r3.keep_rw (st.inv hI0) ?_ rfl ?_
    · simp only [Op.apply] at he
      split at he
      · simp at he
      · rename_i bx hb
        split at he
        · rename_i j hj
          split at he
          · simp only [Option.some.injEq] at he
            subst he
            simp [World.file, World.at, hb, hj, upd]
          · simp at he
        · simp only [Option.some.injEq] at he
          subst he
          have : (w0.setFile b bx pl (some w0.next)).at b pl = some w0.next := by
            rw [at_setFile _ _ _ _ _ hb]; simp
          unfold World.file
          show ((w0.setFile b bx pl (some w0.next)).at b pl).map _ = _
          rw [this]
          simp [upd]
    · intro op hop
      have := hpl op (List.mem_append_right _ (List.mem_cons_of_mem _ hop))
      refine ⟨this.1, ?_⟩
      have h' := List.filter_eq_nil_iff.1 hrest op hop
      simpa [Op.on] using h'

/-- A place without operations is empty. -/
theorem Run.untouched {w w' : World} {h : List Op} {b : Nat} {pl : Place} (hI : Inv w) (hr : Run Polite w h w')
    (h0 : w.at b pl = none) (hf : h.filter (Op.on b pl) = []) : w'.file b pl = none := by
  have := hr.at_none hI h0 (fun op hop => by
    have h' := List.filter_eq_nil_iff.1 hf op hop
    simpa [Op.on] using h')
  simp [World.file, this]

/-- A file that was given cannot be made again. -/
theorem Run.no_touch {w w' : World} {h : List Op} {b : Nat} {pl : Place} {c : Bytes} (hI : Inv w) (h0 : HasRO w b pl c)
    (hr : Run Polite w h w') (hpl : ∀ op ∈ h, Plain b op) : Op.touch b pl ∉ h := by
  intro hm
  obtain ⟨h₁, h₂, rfl⟩ := List.append_of_mem hm
  obtain ⟨w0, r1, r2⟩ := hr.split
  obtain ⟨i, hi, -, hw⟩ := r1.keep_ro hI h0 (fun op hop => by
    have := hpl op (List.mem_append_left _ hop)
    exact ⟨this.1, this.2 pl⟩)
  cases r2 with
  | cons ha hp he r3 =>
    simp only [Op.apply] at he
    cases hb : w0.box b with
    | none => simp [hb] at he
    | some bx =>
      rw [at_some hb] at hi
      simp [hb, hi, hw] at he

end TM.Sandbox
