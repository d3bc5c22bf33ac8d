import Verif.Format.WriteGenLemmas
import Verif.Format.CasesFinal
/-!
# Lemmas for C103: reading the file written
-/
namespace TM.Format
open TM AMap

/-- How many subtasks. -/
def subCount : List Entry → Nat
  | [] => 0
  | .subtask _ :: es => subCount es + 1
  | .testcase _ :: es => subCount es

/-- How many testcases. -/
def testCount : List Entry → Nat
  | [] => 0
  | .subtask _ :: es => testCount es
  | .testcase _ :: es => testCount es + 1

/-- A name is taken. -/
def Taken (n : Text) (es : List Entry) : Prop := ∃ s, Entry.subtask s ∈ es ∧ s.name = some n

/-- The entries (last first) are as `cases.gen` makes them. -/
def Chain (out : Nat → OutputGen) : List Entry → Prop
  | [] => True
  | .subtask s :: es => s.id = subCount es ∧ s.isDefault = false ∧ (∀ n, s.name = some n → Word n ∧ ¬ Taken n es) ∧ Chain out es
  | .testcase t :: es => 0 < subCount es ∧ t.id = testCount es ∧ t.output = out t.id ∧ Chain out es

/-- The state of the reader after some entries. -/
structure Read (rev : List Entry) (st : GenState) : Prop where
  same : SameEntries rev st.rev
  subs : st.subtaskId = subCount rev
  tests : st.testcaseCount = testCount rev
  dflt : st.hasDefault = decide (subCount rev = 0)
  names : ∀ n, (st.nameToId.get? n).isSome = true ↔ Taken n rev
  deps : st.deps = []
  plain : ∀ s, Entry.subtask s ∈ st.rev → s.dependencies = []

theorem genLoop_comments {env : GenEnv} {gen : Source} {st : GenState} {α : Type} (l : List α) :
    genLoop env gen st (l.map (fun _ => .comment)) = .ok st := by
  induction l with
  | nil => rfl
  | cons _ _ ih => simpa [genLoop, genStep] using ih

theorem genLoop_app {env : GenEnv} {gen : Source} {a b : List GenLine} {st st' : GenState}
    (h : genLoop env gen st a = .ok st') : genLoop env gen st (a ++ b) = genLoop env gen st' b := by
  rw [genLoop_append, h]

/-- The constraints written have no newlines. -/
def Plain (c : Constraint) : Prop := OneLine c.text

theorem litOne {l : Text} (h : (l.all fun c => c != '\n' && c != '\r') = true) : OneLine l := by
  intro c hc
  have := List.all_eq_true.1 h c hc
  simpa using this

theorem digits_oneLine {d : Text} (h : Digits d) : OneLine d := by
  intro c hc
  have := h.2 c hc
  constructor <;> (rintro rfl; revert this; decide)

/-- The lines of one entry are read as the entry. -/
theorem entry_read {genv : GenEnv} {w : Writer} {gen : Source} {subs : List (List Constraint)} {e : Entry} {rev : List Entry}
    {st : GenState} (hw : ∀ n : Nat, w.showScore (n : Rat) = natText n) (hs : ∀ cs ∈ subs, ∀ c ∈ cs, Plain c)
    (hx : Expressible genv w [e]) (hc : Chain genv.outputGen (e :: rev)) (hr : Read rev st) :
    ∃ ls st', LinesAre (entryLines w subs e) ls ∧ genLoop genv gen st ls = .ok st' ∧ Read (e :: rev) st' := by
  cases e with
  | subtask s =>
    obtain ⟨k, hk⟩ := hx.scores s (by simp)
    obtain ⟨h1, h2, h3, -⟩ := hc
    have hcs : ∀ c ∈ (subs[s.id]?).getD [], OneLine c.text := by
      intro c hcm
      cases hg : subs[s.id]? with
      | none => rw [hg] at hcm; cases hcm
      | some cs => rw [hg] at hcm; exact hs cs (List.mem_of_getElem? hg) c hcm
    have l1 : LinesAre [[], note ("Subtask ".toList ++ natText s.id), "#ST: ".toList ++ w.showScore s.maxScore]
        [.empty, .comment, .subtask (natText k)] := by
      refine .cons emptyLine (.cons (noteLine (OneLine.app (litOne (by decide)) (natText_oneLine _))) (.cons ?_ .nil))
      rw [hk, hw]
      have := GenLineIs.subtask (a := [' ']) (b := []) (t := []) blankSp (natText_digits k) blankNil (.inl rfl)
      simpa using this
    have l3 := notes (f := Constraint.text) hcs
    generalize hcl : (subs[s.id]?).getD [] = cl at *
    let st1 : GenState :=
      { st with
        hasDefault := false
        rev := .subtask { id := st.subtaskId, maxScore := (digitsVal (natText k) : Rat), isDefault := false,
                          validator := genv.validator st.subtaskId } :: st.rev
        subtaskId := st.subtaskId + 1 }
    have g1 : genLoop genv gen st [.empty, .comment, .subtask (natText k)] = .ok st1 := rfl
    cases hn : s.name with
    | none =>
      refine ⟨[.empty, .comment, .subtask (natText k)] ++ cl.map (fun _ => .comment), st1, ?_, ?_, ?_⟩
      · simp only [entryLines, hn, hcl, List.append_nil]
        exact l1.append l3
      · rw [genLoop_app g1, genLoop_comments]
      · refine ⟨.cons (.subtask ?_ ?_ ?_ ?_) hr.same, ?_, ?_, ?_, ?_, hr.deps, ?_⟩
        · exact hr.subs.trans h1.symm
        · rw [hk, digitsVal_natText]
        · exact hn.symm
        · exact h2.symm
        · exact congrArg (· + 1) hr.subs
        · exact hr.tests
        · simp [st1, subCount]
        · intro n
          rw [show st1.nameToId = st.nameToId from rfl, hr.names]
          constructor
          · rintro ⟨s', hs', hn'⟩
            exact ⟨s', List.mem_cons_of_mem _ hs', hn'⟩
          · rintro ⟨s', hs', hn'⟩
            rcases List.mem_cons.1 hs' with he | hs'
            · cases he; rw [hn] at hn'; cases hn'
            · exact ⟨s', hs', hn'⟩
        · intro s' hs'
          rcases List.mem_cons.1 hs' with he | hs'
          · cases he; rfl
          · exact hr.plain s' hs'
    | some n =>
      obtain ⟨hword, hfree⟩ := h3 n hn
      have hclean := hx.names s n (by simp) hn
      have hnone : st.nameToId.get? n = none := by
        cases hg : st.nameToId.get? n with
        | none => rfl
        | some i => exact absurd ((hr.names n).1 (by rw [hg]; rfl)) hfree
      let st2 : GenState :=
        { st1 with
          rev := .subtask { id := st.subtaskId, name := some n, maxScore := (digitsVal (natText k) : Rat), isDefault := false,
                            validator := genv.validator st.subtaskId } :: st.rev
          nameToId := st.nameToId.insert n st.subtaskId }
      have g2 : genLoop genv gen st1 [.subtaskName n] = .ok st2 := by
        simp only [genLoop, genStep, st1, hclean]
        simp [hnone, st2, st1]
      refine ⟨([.empty, .comment, .subtask (natText k)] ++ [.subtaskName n]) ++ cl.map (fun _ => .comment), st2, ?_, ?_, ?_⟩
      · simp only [entryLines, hn, hcl]
        refine (l1.append (.cons ?_ .nil)).append l3
        have := GenLineIs.subtaskName (a := [' ']) (b := []) (t := []) blankSp hword blankNil (.inl rfl)
        simpa using this
      · rw [List.append_assoc, genLoop_app g1, genLoop_app g2, genLoop_comments]
      · refine ⟨.cons (.subtask ?_ ?_ ?_ ?_) hr.same, ?_, ?_, ?_, ?_, hr.deps, ?_⟩
        · exact hr.subs.trans h1.symm
        · rw [hk, digitsVal_natText]
        · exact hn.symm
        · exact h2.symm
        · exact congrArg (· + 1) hr.subs
        · exact hr.tests
        · simp [st2, st1, subCount]
        · intro n'
          rw [show st2.nameToId = st.nameToId.insert n st.subtaskId from rfl, get?_insert]
          by_cases e : n' = n
          · subst e
            simp only [if_true, Option.isSome_some, true_iff]
            exact ⟨s, by simp, hn⟩
          · rw [if_neg e, hr.names]
            constructor
            · rintro ⟨s', hs', hn'⟩
              exact ⟨s', List.mem_cons_of_mem _ hs', hn'⟩
            · rintro ⟨s', hs', hn'⟩
              rcases List.mem_cons.1 hs' with he | hs'
              · cases he; rw [hn] at hn'; cases hn'; exact absurd rfl e
              · exact ⟨s', hs', hn'⟩
        · intro s' hs'
          rcases List.mem_cons.1 hs' with he | hs'
          · cases he; rfl
          · exact hr.plain s' hs'
  | testcase t =>
    obtain ⟨h1, h2, h3, -⟩ := hc
    have hd : st.hasDefault = false := by rw [hr.dflt]; exact decide_eq_false (by omega)
    have hid : st.testcaseCount = t.id := hr.tests.trans h2.symm
    have hcl : GenLineIs (note ("Testcase ".toList ++ natText t.id)) .comment :=
      noteLine (OneLine.app (litOne (by decide)) (natText_oneLine _))
    have htak : ∀ n, Taken n (.testcase t :: rev) ↔ Taken n rev := by
      intro n
      constructor
      · rintro ⟨s', hs', hn'⟩
        rcases List.mem_cons.1 hs' with he | hs'
        · cases he
        · exact ⟨s', hs', hn'⟩
      · rintro ⟨s', hs', hn'⟩
        exact ⟨s', List.mem_cons_of_mem _ hs', hn'⟩
    have key : ∀ t' : Testcase, SameEntry (.testcase t) (.testcase t') →
        Read (.testcase t :: rev) { st with rev := .testcase t' :: st.rev, testcaseCount := st.testcaseCount + 1 } := by
      intro t' hse
      refine ⟨.cons hse hr.same, hr.subs, ?_, ?_, fun n => (hr.names n).trans (htak n).symm, hr.deps, ?_⟩
      · exact congrArg (· + 1) hr.tests
      · exact hr.dflt
      · intro s' hs'
        rcases List.mem_cons.1 hs' with he | hs'
        · cases he
        · exact hr.plain s' hs'
    cases hi : t.input with
    | staticFile p =>
      obtain ⟨hword, hjoin⟩ := hx.copies t p (by simp) hi
      refine ⟨[.comment, .copy ((w.strip p).getD p)],
        { st with rev := .testcase ⟨st.testcaseCount, .staticFile p, genv.outputGen st.testcaseCount⟩ :: st.rev,
                        testcaseCount := st.testcaseCount + 1 }, ?_, ?_, ?_⟩
      · simp only [entryLines, hi]
        refine .cons hcl (.cons ?_ .nil)
        have := GenLineIs.copy (a := [' ']) (b := []) (t := []) blankSp hword blankNil (.inl rfl)
        simpa using this
      · simp [genLoop, genStep, takeDefault, hd, hjoin]
      · exact key _ (.copy hid (by rw [h3, hid]) hi rfl)
    | custom src args =>
      obtain ⟨hword, hone, hout⟩ := hx.programs t src args (by simp) hi
      obtain ⟨ws, hl, heq⟩ := commandLine hword hone
      refine ⟨[.comment, .command (sourceName src :: ws)],
        { st with rev := .testcase ⟨st.testcaseCount, .custom gen (sourceName src :: ws), genv.outputGen st.testcaseCount⟩ :: st.rev,
                        testcaseCount := st.testcaseCount + 1 }, ?_, ?_, ?_⟩
      · simp only [entryLines, hi]
        exact .cons hcl (.cons hl .nil)
      · have hout' : ∀ p, genv.outputGen st.testcaseCount ≠ .staticFile p := by
          intro p; rw [hid, ← h3]; exact hout p
        have htd : takeDefault genv st = st := by simp [takeDefault, hd]
        simp only [genLoop, genStep, htd]
      · exact key _ (.command hid (by rw [h3, hid]) hi rfl heq)

theorem Expressible.sub {genv : GenEnv} {w : Writer} {es es' : List Entry} (h : Expressible genv w es) (hs : ∀ e ∈ es', e ∈ es) :
    Expressible genv w es' :=
  ⟨fun s hm => h.scores s (hs _ hm), fun s n hm => h.names s n (hs _ hm), fun t p hm => h.copies t p (hs _ hm),
   fun t a b hm => h.programs t a b (hs _ hm)⟩

/-- All the entries. -/
theorem entries_read {genv : GenEnv} {w : Writer} {gen : Source} {subs : List (List Constraint)}
    (hw : ∀ n : Nat, w.showScore (n : Rat) = natText n) (hs : ∀ cs ∈ subs, ∀ c ∈ cs, Plain c) : ∀ (rev : List Entry),
    Expressible genv w rev → Chain genv.outputGen rev →
    ∃ ls st', LinesAre (rev.reverse.flatMap (entryLines w subs)) ls ∧ genLoop genv gen {} ls = .ok st' ∧ Read rev st'
  | [], _, _ => ⟨[], {}, .nil, rfl, ⟨.nil, rfl, rfl, rfl, by intro n; simp [Taken], rfl, by intro s hs; cases hs⟩⟩
  | e :: rev, hx, hc => by
    obtain ⟨ls, st, h1, h2, h3⟩ := entries_read hw hs rev (hx.sub fun _ h => List.mem_cons_of_mem _ h)
      (by cases e with
        | subtask s => exact hc.2.2.2
        | testcase t => exact hc.2.2.2)
    obtain ⟨ls', st', h4, h5, h6⟩ := entry_read (gen := gen) hw hs (hx.sub (es' := [e]) (by simp)) hc h3
    refine ⟨ls ++ ls', st', ?_, ?_, h6⟩
    · rw [List.reverse_cons, List.flatMap_append]
      refine h1.append ?_
      simpa using h4
    · rw [genLoop_app h2, h5]

theorem SameEntries.append {a a' b b' : List Entry} (h : SameEntries a a') (h' : SameEntries b b') :
    SameEntries (a ++ b) (a' ++ b') := by
  induction h with
  | nil => exact h'
  | cons h1 _ ih => exact .cons h1 ih

theorem SameEntries.rev {a a' : List Entry} (h : SameEntries a a') : SameEntries a.reverse a'.reverse := by
  induction h with
  | nil => exact .nil
  | cons h1 _ ih =>
    rw [List.reverse_cons, List.reverse_cons]
    exact ih.append (.cons h1 .nil)

theorem resolveAll_nil {names : AMap Text Nat} {n : Nat} : ∀ (es : List Entry), resolveAll names [] n es = .ok es
  | [] => rfl
  | .testcase t :: es => by simp [resolveAll, resolveAll_nil es]
  | .subtask s :: es => by simp [resolveAll, resolveAll_nil es]

/-- The whole file. -/
theorem written_read {genv : GenEnv} {w : Writer} {gen : Source} {cs : List Constraint} {subs : List (List Constraint)}
    {es : List Entry} (hg : genv.generators = [gen])
    (hw : ∀ n : Nat, w.showScore (n : Rat) = natText n) (hcs : ∀ c ∈ cs, Plain c) (hs : ∀ cs ∈ subs, ∀ c ∈ cs, Plain c)
    (hx : Expressible genv w es) (hc : Chain genv.outputGen es.reverse) :
    ∃ es', parseGenGen genv (writeGen w cs subs es) = .ok es' ∧ SameEntries es es' ∧
      ∀ s, Entry.subtask s ∈ es' → s.dependencies = [] := by
  obtain ⟨ls, st, h1, h2, h3⟩ := entries_read (gen := gen) hw hs es.reverse
    (hx.sub (by intro e he; exact List.mem_reverse.1 he)) hc
  rw [List.reverse_reverse] at h1
  have hh : LinesAre headerLines [.comment, .comment, .comment, .empty] :=
    .cons (noteLine (litOne (by decide))) (.cons (noteLine (litOne (by decide)))
      (.cons (noteLine (litOne (by decide))) (.cons emptyLine .nil)))
  have hcl : ∃ cl : List GenLine, LinesAre (constraintLines cs) cl ∧ ∀ st, genLoop genv gen st cl = .ok st := by
    unfold constraintLines
    split
    · exact ⟨[], .nil, fun _ => rfl⟩
    · refine ⟨_, .cons (noteLine (litOne (by decide))) (notes hcs), fun st => ?_⟩
      simp only [genLoop, genStep]
      exact genLoop_comments cs
  obtain ⟨cl, hcl, hcg⟩ := hcl
  have hall := fileIs_lines ((hh.append hcl).append h1)
  have hp := gen_syntax.2 hall
  refine ⟨st.rev.reverse, ?_, ?_, ?_⟩
  · unfold parseGenGen writeGen genTextLines
    rw [hp]
    simp only [interpGen, hg]
    have hh' : genLoop genv gen {} [.comment, .comment, .comment, .empty] = .ok {} := rfl
    rw [List.append_assoc, List.append_assoc, genLoop_app hh', genLoop_app (hcg _), genLoop_app h2]
    simp only [genLoop, genStep, h3.deps, resolveAll_nil]
  · have := h3.same.rev
    rwa [List.reverse_reverse] at this
  · intro s hm
    exact h3.plain s (List.mem_reverse.1 hm)

end TM.Format
