import Verif.Format.GenSpec

/-! # The loop of `parse_gen_gen` computes the specification -/
namespace TM.Format
open TM AMap

/-- The entry that the next annotations refer to. -/
def headSub : List Entry → Option Subtask
  | .subtask s :: _ => some s
  | _ => none

/-- The last entry after some more annotations. -/
def annHead (env : GenEnv) (as : List GenLine) : List Entry → List Entry
  | .subtask s :: r => .subtask { s with name := s.name.or ((namesIn as).head?.bind (cleanupName env)) } :: r
  | r => r

/-- First value of a list of pairs. -/
def look {α β : Type} [DecidableEq α] (k : α) : List (α × β) → Option β
  | [] => none
  | (a, b) :: l => if a = k then some b else look k l

theorem look_append {α β : Type} [DecidableEq α] (k : α) (l l' : List (α × β)) :
    look k (l ++ l') = (look k l).or (look k l') := by
  induction l with
  | nil => simp [look]
  | cons p l ih =>
    obtain ⟨a, b⟩ := p
    simp only [List.cons_append, look]
    split
    · rfl
    · exact ih

/-- Pairs given to the current subtask. -/
def headPairs (env : GenEnv) (rev : List Entry) (as : List GenLine) : List (Text × Nat) :=
  match headSub rev with
  | some s => ((namesIn as).filterMap (cleanupName env)).map (·, s.id)
  | none => []

/-- Dependencies given to subtask `i` after some more annotations. -/
def addDeps (old : Option (List Text)) (ws : List Text) : Option (List Text) :=
  if ws.isEmpty then old else some (old.getD [] ++ ws)

theorem addDeps_addDeps (old : Option (List Text)) (a b : List Text) :
    addDeps (addDeps old a) b = addDeps old (a ++ b) := by
  unfold addDeps
  cases a with
  | nil => simp
  | cons x a => cases b <;> simp

theorem addDeps_nil (old : Option (List Text)) : addDeps old [] = old := rfl

/-- What the annotations that follow must respect. -/
def HeadOk (env : GenEnv) (rev : List Entry) (as : List GenLine) : Prop :=
  (namesIn as ≠ [] → ∃ s, headSub rev = some s ∧ s.name = none ∧ ∃ n c, namesIn as = [n] ∧
    cleanupName env n = some c) ∧
  (∀ ws, GenLine.subtaskDep ws ∈ as → headSub rev ≠ none)

/-- The result of the loop, in terms of the specification. -/
structure LoopOk (env : GenEnv) (gen : Source) (lines : List GenLine) (st st' : GenState) : Prop where
  rev : st'.rev.reverse = (annHead env (annots lines) st.rev).reverse ++
    spec env gen (fun _ => []) st.subtaskId st.testcaseCount lines
  sub : st'.subtaskId = st.subtaskId + nSub lines
  dflt : st'.hasDefault = false
  names : ∀ n, st'.nameToId.get? n = (st.nameToId.get? n).or
    (look n (headPairs env st.rev (annots lines) ++ nameTable env st.subtaskId lines))
  depsHead : ∀ s, headSub st.rev = some s → st'.deps.get? s.id =
    addDeps (st.deps.get? s.id) (depsIn (annots lines))
  depsOld : ∀ i, i < st.subtaskId → (∀ s, headSub st.rev = some s → s.id ≠ i) →
    st'.deps.get? i = st.deps.get? i
  depsNew : ∀ i, st.subtaskId ≤ i → st'.deps.get? i =
    (look i (depTable st.subtaskId lines)).bind (addDeps none)
  head : HeadOk env st.rev (annots lines)
  dist : ((headPairs env st.rev (annots lines) ++ nameTable env st.subtaskId lines).map (·.1)).Nodup ∧
    ∀ p ∈ headPairs env st.rev (annots lines) ++ nameTable env st.subtaskId lines,
      st.nameToId.get? p.1 = none
  follow : ∀ pre l post, lines = pre ++ l :: post → FollowOk env l (annots post)
  outs : ∀ pre args post, lines = pre ++ .command args :: post → ∀ p,
    env.outputGen (st.testcaseCount + nTc pre) ≠ .staticFile p
  tcs : st'.testcaseCount = st.testcaseCount + nTc lines

theorem follow_cons {env : GenEnv} {l : GenLine} {lines : List GenLine}
    (h1 : FollowOk env l (annots lines))
    (h2 : ∀ pre l post, lines = pre ++ l :: post → FollowOk env l (annots post)) :
    ∀ pre l' post, l :: lines = pre ++ l' :: post → FollowOk env l' (annots post) := by
  intro pre l' post e
  cases pre with
  | nil => simp only [List.nil_append, List.cons.injEq] at e; obtain ⟨rfl, rfl⟩ := e; exact h1
  | cons p pre => simp only [List.cons_append, List.cons.injEq] at e; exact h2 pre l' post e.2

theorem follow_annot {env : GenEnv} {l : GenLine} (h : isAnnot l = true) (as : List GenLine) :
    FollowOk env l as := by
  constructor <;> intro h' <;> cases l <;> simp_all [isAnnot, isTcLine, isStLine]

theorem outs_cons {env : GenEnv} {l : GenLine} {lines : List GenLine} {t d : Nat}
    (h0 : ∀ args, l = .command args → ∀ p, env.outputGen t ≠ .staticFile p)
    (hd : d = if isTcLine l then 1 else 0)
    (h : ∀ pre args post, lines = pre ++ .command args :: post → ∀ p,
      env.outputGen (t + d + nTc pre) ≠ .staticFile p) :
    ∀ pre args post, l :: lines = pre ++ .command args :: post → ∀ p,
      env.outputGen (t + nTc pre) ≠ .staticFile p := by
  intro pre args post e p
  cases pre with
  | nil =>
    simp only [List.nil_append, List.cons.injEq] at e
    exact h0 args e.1 p
  | cons q pre =>
    simp only [List.cons_append, List.cons.injEq] at e
    have := h pre args post e.2 p
    obtain ⟨rfl, _⟩ := e
    have e2 : nTc (l :: pre) = d + nTc pre := by
      subst hd
      simp only [nTc, List.filter_cons]
      split <;> simp <;> omega
    rw [e2, ← Nat.add_assoc]
    exact this

/-- What holds of the state between two lines once the default subtask is out of the way. -/
structure StOk (st : GenState) : Prop where
  dflt : st.hasDefault = false
  head : ∀ s, headSub st.rev = some s → s.id < st.subtaskId
  deps : ∀ i, st.subtaskId ≤ i → st.deps.get? i = none

theorem annots_cons_annot {l : GenLine} (h : isAnnot l = true) (ls : List GenLine) :
    annots (l :: ls) = l :: annots ls := by simp [annots, List.takeWhile_cons, h]

theorem annots_cons_not {l : GenLine} (h : isAnnot l = false) (ls : List GenLine) :
    annots (l :: ls) = [] := by simp [annots, List.takeWhile_cons, h]

theorem annHead_nil (env : GenEnv) (rev : List Entry) : annHead env [] rev = rev := by
  cases rev with
  | nil => rfl
  | cons e r => cases e <;> simp [annHead, namesIn]

theorem headPairs_nil (env : GenEnv) (rev : List Entry) : headPairs env rev [] = [] := by
  unfold headPairs; cases headSub rev <;> simp [namesIn]

theorem headOk_nil (env : GenEnv) (rev : List Entry) : HeadOk env rev [] := by
  simp [HeadOk, namesIn]

theorem depTable_ge {k : Nat} {ls : List GenLine} : ∀ p ∈ depTable k ls, k ≤ p.1 := by
  induction ls generalizing k with
  | nil => simp [depTable]
  | cons l ls ih =>
    cases l with
    | subtask sc =>
      intro p hp
      rcases List.mem_cons.1 hp with rfl | hp
      · exact Nat.le_refl _
      · have := ih p hp; omega
    | _ => exact ih

theorem look_none {α β : Type} [DecidableEq α] {k : α} {l : List (α × β)} (h : ∀ p ∈ l, p.1 ≠ k) :
    look k l = none := by
  induction l with
  | nil => rfl
  | cons p l ih =>
    obtain ⟨a, b⟩ := p
    simp only [look]
    rw [if_neg (h (a, b) (by simp)), ih fun q hq => h q (by simp [hq])]

theorem mem_of_look {α β : Type} [DecidableEq α] {k : α} {l : List (α × β)} {v : β}
    (h : look k l = some v) : (k, v) ∈ l := by
  induction l with
  | nil => cases h
  | cons p l ih =>
    obtain ⟨a, b⟩ := p
    simp only [look] at h
    split at h
    · rename_i e; cases h; subst e; simp
    · exact List.mem_cons_of_mem _ (ih h)

theorem genLoop_ok (env : GenEnv) (gen : Source) (lines : List GenLine) : ∀ (st st' : GenState),
    StOk st → genLoop env gen st lines = .ok st' → LoopOk env gen lines st st' := by
  induction lines with
  | nil =>
    intro st st' hs h
    cases h
    refine ⟨?_, rfl, hs.dflt, ?_, ?_, ?_, ?_, headOk_nil env _, ?_, ?_, ?_, rfl⟩
    · simp [annots, annHead_nil, spec]
    · intro n; simp [annots, headPairs_nil, nameTable, look]
    · intro s _; rfl
    · intro i _ _; rfl
    · intro i hi; rw [hs.deps i hi]; rfl
    · simp [annots, headPairs_nil, nameTable]
    · intro pre l post e; cases pre <;> simp at e
    · intro pre l post e; cases pre <;> simp at e
  | cons l lines ih =>
    intro st st' hs h
    simp only [genLoop] at h
    cases hst : genStep env gen st l with
    | error e => rw [hst] at h; cases h
    | ok st1 =>
      simp only [hst] at h
      cases l with
      | comment =>
        cases hst
        have := ih st st' hs h
        refine ⟨?_, ?_, this.dflt, ?_, ?_, this.depsOld, this.depsNew, ?_, ?_,
          follow_cons (follow_annot rfl _) this.follow,
          outs_cons (d := 0) (by simp) rfl this.outs, by rw [this.tcs]; simp [nTc, isTcLine]⟩
        · rw [annots_cons_annot rfl]; exact this.rev
        · exact this.sub
        · rw [annots_cons_annot rfl]; exact this.names
        · rw [annots_cons_annot rfl]; exact this.depsHead
        · rw [annots_cons_annot rfl]
          refine ⟨this.head.1, ?_⟩
          intro ws hws
          simp only [List.mem_cons, reduceCtorEq, false_or] at hws
          exact this.head.2 ws hws
        · rw [annots_cons_annot rfl]; exact this.dist
      | empty =>
        cases hst
        have := ih st st' hs h
        refine ⟨?_, ?_, this.dflt, ?_, ?_, this.depsOld, this.depsNew, ?_, ?_,
          follow_cons (follow_annot rfl _) this.follow,
          outs_cons (d := 0) (by simp) rfl this.outs, by rw [this.tcs]; simp [nTc, isTcLine]⟩
        · rw [annots_cons_annot rfl]; exact this.rev
        · exact this.sub
        · rw [annots_cons_annot rfl]; exact this.names
        · rw [annots_cons_annot rfl]; exact this.depsHead
        · rw [annots_cons_annot rfl]
          refine ⟨this.head.1, ?_⟩
          intro ws hws
          simp only [List.mem_cons, reduceCtorEq, false_or] at hws
          exact this.head.2 ws hws
        · rw [annots_cons_annot rfl]; exact this.dist
      | subtask score =>
        simp only [genStep, Except.ok.injEq] at hst
        have hs1 : StOk st1 := by
          subst hst
          refine ⟨rfl, ?_, ?_⟩
          · intro s hh; simp only [headSub, Option.some.injEq] at hh; subst hh; exact Nat.lt_succ_self _
          · intro i hi; exact hs.deps i (by simp only at hi; omega)
        have := ih st1 st' hs1 h
        subst hst
        have hr := this.rev
        have hn := this.names
        have hd := this.depsHead _ rfl
        have ho := this.depsOld
        have hw := this.depsNew
        have hh := this.head
        have hdist := this.dist
        simp only at hr hn hd ho hw hh hdist
        refine ⟨?_, ?_, this.dflt, ?_, ?_, ?_, ?_, ?_, ?_,
          follow_cons ⟨by simp [isTcLine], fun _ => ?_⟩ this.follow,
          outs_cons (d := 0) (by simp) rfl this.outs, by rw [this.tcs]; simp [nTc, isTcLine]⟩
        rotate_right
        · by_cases hne : namesIn (annots lines) = []
          · exact .inl hne
          · obtain ⟨_, _, _, n, c, h1, h2⟩ := hh.1 hne
            exact .inr ⟨n, c, h1, h2⟩
        · rw [annots_cons_not rfl, annHead_nil, hr]
          simp [annHead, spec, List.append_assoc]
        · rw [this.sub]; simp only [nSub, List.filter_cons, isStLine, if_true, List.length_cons]; omega
        · intro n
          rw [annots_cons_not rfl, headPairs_nil, hn n]
          rfl
        · intro s hsn
          rw [annots_cons_not rfl, show depsIn [] = [] from rfl, addDeps_nil]
          have hlt := hs.head s hsn
          refine ho s.id (by omega) ?_
          intro s' hs'
          simp only [headSub, Option.some.injEq] at hs'
          subst hs'
          simp only
          omega
        · intro i hi hne
          refine ho i (by omega) ?_
          intro s' hs'
          simp only [headSub, Option.some.injEq] at hs'
          subst hs'
          simp only
          omega
        · intro i hi
          simp only [depTable, look]
          by_cases e : i = st.subtaskId
          · subst e
            rw [hd, hs.deps _ (Nat.le_refl _)]
            simp
          · rw [if_neg (fun e' => e e'.symm)]
            exact hw i (by omega)
        · rw [annots_cons_not rfl]; exact headOk_nil env _
        · rw [annots_cons_not rfl, headPairs_nil]
          exact hdist
      | copy path =>
        have htd : takeDefault env st = st := by simp [takeDefault, hs.dflt]
        simp only [genStep, htd, Except.ok.injEq] at hst
        have hs1 : StOk st1 := by
          subst hst
          exact ⟨hs.dflt, by intro s hh; simp [headSub] at hh, hs.deps⟩
        have := ih st1 st' hs1 h
        subst hst
        have hr := this.rev
        have hn := this.names
        have ho := this.depsOld
        have hw := this.depsNew
        have hdist := this.dist
        simp only at hr hn ho hw hdist
        have hp : ∀ r as, headPairs env (.testcase ⟨st.testcaseCount, .staticFile (env.join path),
            env.outputGen st.testcaseCount⟩ :: r) as = [] := fun _ _ => rfl
        rw [hp] at hdist
        refine ⟨?_, ?_, this.dflt, ?_, ?_, ?_, hw, ?_, ?_,
          follow_cons ⟨fun _ => ⟨?_, fun ws hws => ?_⟩, by simp [isStLine]⟩ this.follow,
          outs_cons (d := 1) (by simp) rfl this.outs,
          by rw [this.tcs]; simp only [nTc, List.filter_cons, isTcLine, if_true, List.length_cons]; omega⟩
        rotate_right
        · exact this.head.2 ws hws rfl
        rotate_right
        · apply Classical.byContradiction
          intro hne
          obtain ⟨_, h1, _⟩ := this.head.1 hne
          cases h1
        · rw [annots_cons_not rfl, annHead_nil, hr]
          simp [annHead, spec, List.append_assoc]
        · rw [this.sub]; simp [nSub, isStLine]
        · intro n
          rw [annots_cons_not rfl, headPairs_nil, hn n, hp]
          rfl
        · intro s hsn
          rw [annots_cons_not rfl, show depsIn [] = [] from rfl, addDeps_nil]
          exact ho s.id (hs.head s hsn) (by intro s' hs'; simp [headSub] at hs')
        · intro i hi hne
          exact ho i hi (by intro s' hs'; simp [headSub] at hs')
        · rw [annots_cons_not rfl]; exact headOk_nil env _
        · rw [annots_cons_not rfl, headPairs_nil]
          exact hdist
      | command args =>
        have htd : takeDefault env st = st := by simp [takeDefault, hs.dflt]
        simp only [genStep, htd] at hst
        have hst' : st1 = { st with
            rev := .testcase ⟨st.testcaseCount, .custom gen args, env.outputGen st.testcaseCount⟩ :: st.rev
            testcaseCount := st.testcaseCount + 1 } := by
          cases ho : env.outputGen st.testcaseCount with
          | staticFile p => rw [ho] at hst; cases hst
          | custom p => rw [ho] at hst; cases hst; rfl
          | notAvailable => rw [ho] at hst; cases hst; rfl
        have hout : ∀ p, env.outputGen st.testcaseCount ≠ .staticFile p := by
          intro p ho
          rw [ho] at hst; cases hst
        have hs1 : StOk st1 := by
          subst hst'
          exact ⟨hs.dflt, by intro s hh; simp [headSub] at hh, hs.deps⟩
        have := ih st1 st' hs1 h
        subst hst'
        have hr := this.rev
        have hn := this.names
        have ho := this.depsOld
        have hw := this.depsNew
        have hdist := this.dist
        simp only at hr hn ho hw hdist
        have hp : ∀ r as, headPairs env (.testcase ⟨st.testcaseCount, .custom gen args,
            env.outputGen st.testcaseCount⟩ :: r) as = [] := fun _ _ => rfl
        rw [hp] at hdist
        refine ⟨?_, ?_, this.dflt, ?_, ?_, ?_, hw, ?_, ?_,
          follow_cons ⟨fun _ => ⟨?_, fun ws hws => ?_⟩, by simp [isStLine]⟩ this.follow,
          outs_cons (d := 1) (fun _ _ => hout) rfl this.outs,
          by rw [this.tcs]; simp only [nTc, List.filter_cons, isTcLine, if_true, List.length_cons]; omega⟩
        rotate_right
        · exact this.head.2 ws hws rfl
        rotate_right
        · apply Classical.byContradiction
          intro hne
          obtain ⟨_, h1, _⟩ := this.head.1 hne
          cases h1
        · rw [annots_cons_not rfl, annHead_nil, hr]
          simp [annHead, spec, List.append_assoc]
        · rw [this.sub]; simp [nSub, isStLine]
        · intro n
          rw [annots_cons_not rfl, headPairs_nil, hn n, hp]
          rfl
        · intro s hsn
          rw [annots_cons_not rfl, show depsIn [] = [] from rfl, addDeps_nil]
          exact ho s.id (hs.head s hsn) (by intro s' hs'; simp [headSub] at hs')
        · intro i hi hne
          exact ho i hi (by intro s' hs'; simp [headSub] at hs')
        · rw [annots_cons_not rfl]; exact headOk_nil env _
        · rw [annots_cons_not rfl, headPairs_nil]
          exact hdist
      | subtaskDep ws =>
        simp only [genStep] at hst
        cases hrev : st.rev with
        | nil => rw [hrev] at hst; cases hst
        | cons e r =>
          cases e with
          | testcase t => rw [hrev] at hst; cases hst
          | subtask s =>
            simp only [hrev, Except.ok.injEq] at hst
            have hid : s.id < st.subtaskId := hs.head s (by rw [hrev]; rfl)
            have hget : ∀ i, st1.deps.get? i =
                if i = s.id then addDeps (st.deps.get? s.id) ws else st.deps.get? i := by
              intro i
              subst hst
              simp only [addDeps]
              cases ws with
              | nil => simp; intro e; rw [e]
              | cons w ws => simp [AMap.get?_insert]
            have hs1 : StOk st1 := by
              refine ⟨by subst hst; exact hs.dflt, by
                subst hst; intro s' hs'; exact hs.head s' (by rw [hrev]; exact hs'), ?_⟩
              intro i hi
              have hi' : st.subtaskId ≤ i := by subst hst; exact hi
              rw [hget i, if_neg (by omega)]
              exact hs.deps i hi'
            have := ih st1 st' hs1 h
            have hrev1 : st1.rev = .subtask s :: r := by subst hst; rfl
            have hsub1 : st1.subtaskId = st.subtaskId := by subst hst; rfl
            have htc1 : st1.testcaseCount = st.testcaseCount := by subst hst; rfl
            have hnm1 : st1.nameToId = st.nameToId := by subst hst; rfl
            have hnames : namesIn (annots (GenLine.subtaskDep ws :: lines)) = namesIn (annots lines) := by
              rw [annots_cons_annot rfl]; rfl
            have hdeps : depsIn (annots (GenLine.subtaskDep ws :: lines)) = ws ++ depsIn (annots lines) := by
              rw [annots_cons_annot rfl]; rfl
            have hr := this.rev
            have hdist := this.dist
            rw [hrev1, hsub1, htc1] at hr
            rw [hrev1, hsub1, hnm1] at hdist
            have hpairs : headPairs env (Entry.subtask s :: r) (annots (GenLine.subtaskDep ws :: lines)) =
                headPairs env (Entry.subtask s :: r) (annots lines) := by
              simp only [headPairs, headSub, hnames]
            have houts := this.outs
            rw [htc1] at houts
            refine ⟨?_, ?_, this.dflt, ?_, ?_, ?_, ?_, ?_, ?_,
              follow_cons (follow_annot rfl _) this.follow,
              outs_cons (d := 0) (by simp) rfl houts, by rw [this.tcs, htc1]; simp [nTc, isTcLine]⟩
            · rw [hr, hrev]; simp only [annHead, hnames, spec]
            · rw [this.sub, hsub1]; simp [nSub, isStLine]
            · intro n
              rw [this.names n, hrev1, hsub1, hnm1, hrev, hpairs]
              rfl
            · intro s' hs'
              rw [hrev] at hs'
              simp only [headSub, Option.some.injEq] at hs'
              subst hs'
              rw [this.depsHead s (by rw [hrev1]; rfl), hget, if_pos rfl, addDeps_addDeps, hdeps]
            · intro i hi hne
              rw [hrev] at hne
              rw [this.depsOld i (by rw [hsub1]; exact hi) (by rw [hrev1]; exact hne), hget,
                if_neg (fun e => hne s rfl e.symm)]
            · intro i hi
              rw [this.depsNew i (by rw [hsub1]; exact hi), hsub1]
              rfl
            · have hh := this.head
              rw [hrev1] at hh
              rw [hrev]
              refine ⟨?_, ?_⟩
              · rw [hnames]; exact hh.1
              · intro ws' _; simp [headSub]
            · rw [hrev, hpairs]
              exact hdist
      | subtaskName name =>
        simp only [genStep] at hst
        cases hrev : st.rev with
        | nil => rw [hrev] at hst; cases hst
        | cons e r =>
          cases e with
          | testcase t => rw [hrev] at hst; cases hst
          | subtask s =>
            simp only [hrev] at hst
            cases hnm : s.name with
            | some x => rw [hnm] at hst; simp at hst
            | none =>
              rw [hnm] at hst
              simp only [Option.isSome_none, Bool.false_eq_true, if_false] at hst
              cases hcl : cleanupName env name with
              | none => rw [hcl] at hst; cases hst
              | some c =>
                simp only [hcl] at hst
                cases hdup : st.nameToId.get? c with
                | some j => rw [hdup] at hst; simp at hst
                | none =>
                  rw [hdup] at hst
                  simp only [Option.isSome_none, Bool.false_eq_true, if_false, Except.ok.injEq] at hst
                  have hid : s.id < st.subtaskId := hs.head s (by rw [hrev]; rfl)
                  have hs1 : StOk st1 := by
                    subst hst
                    refine ⟨hs.dflt, ?_, hs.deps⟩
                    intro s' hs'
                    simp only [headSub, Option.some.injEq] at hs'
                    subst hs'; exact hid
                  have := ih st1 st' hs1 h
                  have hrev1 : st1.rev = .subtask { s with name := some c } :: r := by subst hst; rfl
                  have hsub1 : st1.subtaskId = st.subtaskId := by subst hst; rfl
                  have htc1 : st1.testcaseCount = st.testcaseCount := by subst hst; rfl
                  have hdp1 : st1.deps = st.deps := by subst hst; rfl
                  have hnm1 : ∀ n, st1.nameToId.get? n = if n = c then some s.id else st.nameToId.get? n := by
                    intro n; subst hst; simp only [AMap.get?_insert]
                  -- no further name follows
                  have hno : namesIn (annots lines) = [] := by
                    apply Classical.byContradiction
                    intro hne
                    obtain ⟨s', hs', hn', _⟩ := this.head.1 hne
                    rw [hrev1] at hs'
                    simp only [headSub, Option.some.injEq] at hs'
                    subst hs'; cases hn'
                  have hnames : namesIn (annots (GenLine.subtaskName name :: lines)) = [name] := by
                    rw [annots_cons_annot rfl]
                    have : namesIn (GenLine.subtaskName name :: annots lines) =
                      name :: namesIn (annots lines) := rfl
                    rw [this, hno]
                  have hdeps : depsIn (annots (GenLine.subtaskName name :: lines)) =
                      depsIn (annots lines) := by
                    rw [annots_cons_annot rfl]; rfl
                  have hpairs : headPairs env (Entry.subtask s :: r)
                      (annots (GenLine.subtaskName name :: lines)) = [(c, s.id)] := by
                    simp [headPairs, headSub, hnames, hcl]
                  have hpairs1 : headPairs env st1.rev (annots lines) = [] := by
                    rw [hrev1]; simp [headPairs, headSub, hno]
                  have hdist := this.dist
                  rw [hpairs1, hsub1, List.nil_append] at hdist
                  have hcn : ∀ p ∈ nameTable env st.subtaskId lines, p.1 ≠ c ∧
                      st.nameToId.get? p.1 = none := by
                    intro p hp
                    have := hdist.2 p hp
                    rw [hnm1] at this
                    split at this
                    · cases this
                    · rename_i hne; exact ⟨hne, this⟩
                  have houts := this.outs
                  rw [htc1] at houts
                  refine ⟨?_, ?_, this.dflt, ?_, ?_, ?_, ?_, ?_, ?_,
                    follow_cons (follow_annot rfl _) this.follow,
                    outs_cons (d := 0) (by simp) rfl houts,
                    by rw [this.tcs, htc1]; simp [nTc, isTcLine]⟩
                  · rw [this.rev, hrev1, hrev, hsub1, htc1]
                    simp [annHead, hnames, hnm, hno, hcl, spec]
                  · rw [this.sub, hsub1]; simp [nSub, isStLine]
                  · intro n
                    rw [this.names n, hpairs1, hsub1, hrev, hpairs, hnm1]
                    simp only [List.nil_append, List.cons_append, look]
                    by_cases e : n = c
                    · subst e; simp [hdup]
                    · rw [if_neg e, if_neg (fun e' => e e'.symm)]
                      rfl
                  · intro s' hs'
                    rw [hrev] at hs'
                    simp only [headSub, Option.some.injEq] at hs'
                    subst hs'
                    have := this.depsHead { s with name := some c } (by rw [hrev1]; rfl)
                    rw [hdp1] at this
                    rw [hdeps]
                    exact this
                  · intro i hi hne
                    rw [hrev] at hne
                    rw [← hdp1]
                    refine this.depsOld i (by rw [hsub1]; exact hi) ?_
                    rw [hrev1]
                    intro s' hs'
                    simp only [headSub, Option.some.injEq] at hs'
                    subst hs'
                    exact hne s rfl
                  · intro i hi
                    rw [this.depsNew i (by rw [hsub1]; exact hi), hsub1]
                    rfl
                  · rw [hrev]
                    refine ⟨fun _ => ⟨s, rfl, hnm, name, c, hnames, hcl⟩, ?_⟩
                    intro ws' _; simp [headSub]
                  · rw [hrev, hpairs]
                    show (((c, s.id) :: nameTable env st.subtaskId lines).map (·.1)).Nodup ∧ _
                    refine ⟨?_, ?_⟩
                    · rw [List.map_cons, List.nodup_cons]
                      refine ⟨?_, hdist.1⟩
                      intro hm
                      obtain ⟨p, hp, e⟩ := List.mem_map.1 hm
                      exact (hcn p hp).1 e
                    · intro p hp
                      rcases List.mem_cons.1 hp with rfl | hp
                      · exact hdup
                      · exact (hcn p hp).2

end TM.Format
