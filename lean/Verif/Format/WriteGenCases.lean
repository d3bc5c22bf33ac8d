import Verif.Format.WriteGenMain
/-!
# Lemmas for C103: what `cases.gen` makes
-/
namespace TM.Format
open TM AMap

/-- The state of the reader of `cases.gen`. -/
structure Made (out : Nat → OutputGen) (st : CasesState) : Prop where
  chain : Chain out st.rev
  subs : st.subtaskId = subCount st.rev
  tests : st.testcaseId = testCount st.rev
  names : ∀ n, (st.nameToId.get? n).isSome = true ↔ Taken n st.rev
  global : ∀ c ∈ st.constraints, Plain c
  locals : ∀ cs ∈ st.subConstraints, ∀ c ∈ cs, Plain c

/-- What the syntax gives about a line. -/
inductive LineFine : CLine → Prop
  | constraint {x : CTerm} {rest : List (CmpOp × CTerm)} : (∀ v, x = .var v → Word v) → (∀ o v, (o, CTerm.var v) ∈ rest → Word v) →
      LineFine (.command (.constraint x rest))
  | subtask {f : Text} {d : Option Text} : (∀ t, d = some t → Free t ∧ NoBlank t) → LineFine (.command (.subtask f d))
  | other {l : CLine} : (∀ x rest, l ≠ .command (.constraint x rest)) → (∀ f d, l ≠ .command (.subtask f d)) → LineFine l

theorem cmps_words {rest : List (CmpOp × CTerm)} {m : Text} (h : CmpsIs rest m) : ∀ o v, (o, CTerm.var v) ∈ rest → Word v := by
  induction h with
  | nil => intro o v hm; cases hm
  | cons _ _ _ hx _ _ ih =>
    intro o v hm
    rcases List.mem_cons.1 hm with e | hm
    · cases e; cases hx; assumption
    · exact ih o v hm

theorem lineOk_of {s : Text} {l : CLine} (h : CasesLineIs s l) : LineFine l := by
  cases h with
  | comment _ => exact .other (by intros; simp) (by intros; simp)
  | testcase _ _ _ => exact .other (by intros; simp) (by intros; simp)
  | empty => exact .other (by intros; simp) (by intros; simp)
  | command _ hc _ =>
    cases hc with
    | constraint _ _ hx _ hm _ _ =>
      refine .constraint ?_ (cmps_words hm)
      rintro v rfl
      cases hx; assumption
    | subtask _ _ _ _ => exact .subtask (by intro t ht; cases ht)
    | described _ _ _ _ _ h1 h2 => exact .subtask (by intro t ht; cases ht; exact ⟨h1, h2⟩)
    | _ => exact .other (by intros; simp) (by intros; simp)

theorem linesOk_of {s : Text} {ls : List CLine} (h : FileIs CasesLineIs s ls) : ∀ l ∈ ls, LineFine l := by
  induction h with
  | last h => intro l hl; simp at hl; subst hl; exact lineOk_of h
  | line h _ _ ih =>
    intro l hl
    rcases List.mem_cons.1 hl with rfl | hl
    · exact lineOk_of h
    · exact ih l hl

theorem nameOf_word {d : Text} (h : Free d) (hb : NoBlank d) : Word (nameOf d) := by
  constructor
  · cases d with
    | nil => exact absurd rfl h.1
    | cons c u =>
      have := hb c rfl
      simp [nameOf, this.1, this.2]
  · intro c hc
    simp only [nameOf, List.mem_filter, Bool.and_eq_true, bne_iff_ne] at hc
    have := h.2 c hc.1
    exact ⟨hc.2.1, hc.2.2, this.1, this.2.1, this.2.2⟩

theorem i64Text_oneLine (k : Int) : OneLine (i64Text k) := by
  cases k with
  | ofNat n => exact natText_oneLine n
  | negSucc n =>
    intro c hc
    rcases List.mem_cons.1 hc with rfl | hc
    · exact ⟨by decide, by decide⟩
    · exact natText_oneLine _ c hc

/-- The operands can be written. -/
def OpOk : Operand → Prop
  | .const _ => True
  | .var v => OneLine v

theorem operand_oneLine {x : Operand} (h : OpOk x) : OneLine x.text := by
  cases x with
  | const k => exact i64Text_oneLine k
  | var v =>
    intro c hc
    rcases List.mem_cons.1 hc with rfl | hc
    · exact ⟨by decide, by decide⟩
    · exact h c hc

theorem op_oneLine (o : CmpOp) : OneLine o.text := by cases o <;> exact litOne (by decide)

theorem plain_of {c : Constraint} (h : ∀ x ∈ c.operands, OpOk x) : Plain c := by
  unfold Plain Constraint.text
  split
  · intro c hc; cases hc
  · next x xs he =>
    rw [he] at h
    refine OneLine.app (operand_oneLine (h x (by simp))) ?_
    intro ch hch
    obtain ⟨p, hp, hch⟩ := List.mem_flatMap.1 hch
    have hx := h p.2 (List.mem_cons_of_mem _ (List.of_mem_zip hp).2)
    rcases List.mem_cons.1 hch with rfl | hch
    · exact ⟨by decide, by decide⟩
    rcases List.mem_append.1 hch with hch | hch
    · exact op_oneLine _ ch hch
    rcases List.mem_cons.1 hch with rfl | hch
    · exact ⟨by decide, by decide⟩
    · exact operand_oneLine hx ch hch

theorem items_ok : ∀ (items : List CItem) (c c' : Constraint) (dir : Option Bool),
    (∀ v, CItem.term (.var v) ∈ items → Word v) → (∀ x ∈ c.operands, OpOk x) → constraintItems c dir items = .ok c' →
    ∀ x ∈ c'.operands, OpOk x
  | [], c, c', dir, _, hc, h => by cases h; exact hc
  | .term (.number t) :: rest, c, c', dir, hi, hc, h => by
    simp only [constraintItems] at h
    split at h
    · cases h
    · refine items_ok rest _ c' dir (fun v hv => hi v (List.mem_cons_of_mem _ hv)) ?_ h
      intro x hx
      rcases List.mem_append.1 hx with hx | hx
      · exact hc x hx
      · simp at hx; subst hx; trivial
  | .term (.var v) :: rest, c, c', dir, hi, hc, h => by
    refine items_ok rest _ c' dir (fun v hv => hi v (List.mem_cons_of_mem _ hv)) ?_ h
    intro x hx
    rcases List.mem_append.1 hx with hx | hx
    · exact hc x hx
    · simp at hx; subst hx; exact OneLine.of_word (hi v (by simp))
  | .op o :: rest, c, c', dir, hi, hc, h => by
    simp only [constraintItems] at h
    generalize (if dir.isNone = true then o.direction else dir) = dir' at h
    by_cases hb : (o.direction.isSome && dir' != o.direction) = true
    · rw [if_pos hb] at h; cases h
    · rw [if_neg hb] at h
      exact items_ok rest { c with operators := c.operators ++ [o] } c' _ (fun v hv => hi v (List.mem_cons_of_mem _ hv)) hc h

theorem taken_testcase {t : Testcase} {rev : List Entry} {n : Text} : Taken n (.testcase t :: rev) ↔ Taken n rev := by
  constructor
  · rintro ⟨s', hs', hn'⟩
    rcases List.mem_cons.1 hs' with he | hs'
    · cases he
    · exact ⟨s', hs', hn'⟩
  · rintro ⟨s', hs', hn'⟩
    exact ⟨s', List.mem_cons_of_mem _ hs', hn'⟩

theorem taken_subtask {s : Subtask} {rev : List Entry} {n : Text} :
    Taken n (.subtask s :: rev) ↔ s.name = some n ∨ Taken n rev := by
  constructor
  · rintro ⟨s', hs', hn'⟩
    rcases List.mem_cons.1 hs' with he | hs'
    · cases he; exact .inl hn'
    · exact .inr ⟨s', hs', hn'⟩
  · rintro (h | ⟨s', hs', hn'⟩)
    · exact ⟨s, by simp, h⟩
    · exact ⟨s', List.mem_cons_of_mem _ hs', hn'⟩

theorem Made.test {env : CasesEnv} {st : CasesState} (h : Made env.outputGen st) (hp : 0 < st.subtaskId) (i : InputGen) :
    Made env.outputGen { st with
      rev := .testcase ⟨st.testcaseId, i, env.outputGen st.testcaseId⟩ :: st.rev
      testcaseId := st.testcaseId + 1 } :=
  ⟨⟨by rw [← h.subs]; exact hp, h.tests, rfl, h.chain⟩, h.subs, congrArg (· + 1) h.tests,
   fun n => (h.names n).trans taken_testcase.symm, h.global, h.locals⟩

theorem parseTestcase_made {env : CasesEnv} {st st' : CasesState} {line : Text} {cur : Option Text}
    (h : Made env.outputGen st) (hok : parseTestcase env st line cur = .ok st') : Made env.outputGen st' := by
  unfold parseTestcase at hok
  split at hok
  · cases hok
  next hz =>
  split at hok
  · cases hok
  split at hok
  · cases hok
  split at hok
  · cases hok
  split at hok
  · cases hok
  split at hok
  · cases hok
  split at hok
  · cases hok
  cases hok
  exact h.test (by omega) _

theorem Made.setVal {out : Nat → OutputGen} {st : CasesState} {s : Subtask} {rest : List Entry} (h : Made out st)
    (he : st.rev = .subtask s :: rest) (v : Validator) :
    Made out { st with rev := .subtask { s with validator := v } :: rest } := by
  have hc := h.chain
  have h1 := h.subs
  have h2 := h.tests
  have h3 := h.names
  rw [he] at hc h1 h2 h3
  refine ⟨hc, h1, h2, fun n => (h3 n).trans ?_, h.global, h.locals⟩
  show _ ↔ Taken n (.subtask { s with validator := v } :: rest)
  rw [taken_subtask, taken_subtask]

theorem parseSubtask_made {out : Nat → OutputGen} {st st' : CasesState} {f : Text} {d : Option Text} (h : Made out st)
    (hd : ∀ t, d = some t → Free t ∧ NoBlank t) (hok : parseSubtask st f d = .ok st') : Made out st' := by
  unfold parseSubtask at hok
  simp only at hok
  have hl : ∀ cs ∈ ([] :: st.subConstraints), ∀ c ∈ cs, Plain c := by
    intro cs hcs c hc
    rcases List.mem_cons.1 hcs with rfl | hcs
    · cases hc
    · exact h.locals cs hcs c hc
  cases d with
  | none =>
    simp only [Option.map_none] at hok
    rw [if_neg (by simp)] at hok
    split at hok
    · cases hok
    split at hok
    · cases hok
    cases hok
    refine ⟨⟨h.subs, rfl, (by intro n hn; cases hn), h.chain⟩, congrArg (· + 1) h.subs, h.tests, ?_, h.global, hl⟩
    intro n
    refine (h.names n).trans ?_
    show _ ↔ Taken n (.subtask _ :: st.rev)
    rw [taken_subtask]
    simp
  | some t =>
    simp only [Option.map_some] at hok
    by_cases hdup : (st.nameToId.get? (nameOf t)).isSome = true
    · rw [if_pos hdup] at hok; cases hok
    rw [if_neg hdup] at hok
    split at hok
    · cases hok
    split at hok
    · cases hok
    cases hok
    have hfree : ¬ Taken (nameOf t) st.rev := by
      rw [← h.names]
      exact hdup
    refine ⟨⟨h.subs, rfl, ?_, h.chain⟩, congrArg (· + 1) h.subs, h.tests, ?_, h.global, hl⟩
    · intro n hn
      have hn' := Option.some.inj hn
      subst hn'
      exact ⟨nameOf_word (hd t rfl).1 (hd t rfl).2, hfree⟩
    · intro n
      show _ ↔ Taken n (.subtask _ :: st.rev)
      rw [taken_subtask, ← h.names]
      simp only [get?_insert]
      by_cases e : n = nameOf t
      · subst e; simp
      · simp [e, Ne.symm e]

theorem parseConstraint_made {out : Nat → OutputGen} {st st' : CasesState} {x : CTerm} {rest : List (CmpOp × CTerm)}
    (h : Made out st) (h1 : ∀ v, x = .var v → Word v) (h2 : ∀ o v, (o, CTerm.var v) ∈ rest → Word v)
    (hok : parseConstraint st (flatItems x rest) = .ok st') : Made out st' := by
  unfold parseConstraint at hok
  split at hok
  · cases hok
  next c hc =>
  have hp : Plain c := by
    refine plain_of (items_ok _ _ _ _ ?_ (by intro x hx; cases hx) hc)
    intro v hv
    rcases List.mem_cons.1 hv with e | hv
    · exact h1 v (by injection e with e; exact e.symm)
    · obtain ⟨p, hp, hv⟩ := List.mem_flatMap.1 hv
      simp at hv
      exact h2 p.1 v (by rw [hv]; exact hp)
  split at hok
  · cases hok
  split at hok
  · cases hok
  split at hok
  · cases hok
    refine ⟨h.chain, h.subs, h.tests, h.names, ?_, h.locals⟩
    intro c' hc'
    rcases List.mem_append.1 hc' with hc' | hc'
    · exact h.global c' hc'
    · simp at hc'; subst hc'; exact hp
  · split at hok
    · cases hok
    next cs rs he =>
    cases hok
    refine ⟨h.chain, h.subs, h.tests, h.names, h.global, ?_⟩
    have hl := h.locals
    rw [he] at hl
    intro cs' hcs' c' hc'
    rcases List.mem_cons.1 hcs' with rfl | hcs'
    · rcases List.mem_append.1 hc' with hc' | hc'
      · exact hl cs (by simp) c' hc'
      · simp at hc'; subst hc'; exact hp
    · exact hl cs' (List.mem_cons_of_mem _ hcs') c' hc'

theorem step_made {env : CasesEnv} {st st' : CasesState} {l : CLine} (h : Made env.outputGen st) (hl : LineFine l)
    (hok : casesStep env st l = .ok st') : Made env.outputGen st' := by
  cases l with
  | comment => cases hok; exact h
  | empty => cases hok; exact h
  | testcase t => exact parseTestcase_made h hok
  | command c =>
    simp only [casesStep] at hok
    cases c with
    | constraint x rest =>
      cases hl with
      | constraint h1 h2 => exact parseConstraint_made h h1 h2 hok
      | other h1 _ => exact absurd rfl (h1 _ _)
    | subtask f d =>
      cases hl with
      | subtask h1 => exact parseSubtask_made h h1 hok
      | other _ h1 => exact absurd rfl (h1 _ _)
    | genSelect n =>
      simp only [parseCommand] at hok
      split at hok
      · cases hok
      split at hok
      · cases hok
      cases hok
      exact ⟨h.chain, h.subs, h.tests, h.names, h.global, h.locals⟩
    | genDefine n p v =>
      simp only [parseCommand] at hok
      split at hok
      · cases hok
      cases hok
      exact ⟨h.chain, h.subs, h.tests, h.names, h.global, h.locals⟩
    | valDefine n p v =>
      simp only [parseCommand] at hok
      split at hok
      · cases hok
      cases hok
      exact ⟨h.chain, h.subs, h.tests, h.names, h.global, h.locals⟩
    | valSelect n =>
      simp only [parseCommand] at hok
      split at hok
      · cases hok
      split at hok
      · cases hok
      split at hok
      · cases hok
      split at hok
      · next he => cases hok; exact h.setVal he _
      · cases hok
    | stDep ns =>
      simp only [parseCommand] at hok
      split at hok
      · cases hok; exact h
      split at hok
      · cases hok; exact ⟨h.chain, h.subs, h.tests, h.names, h.global, h.locals⟩
      · cases hok
    | copy p =>
      simp only [parseCommand] at hok
      split at hok
      · cases hok
      next hz =>
      split at hok
      · cases hok
      cases hok
      exact h.test (by omega) _
    | run n a =>
      simp only [parseCommand] at hok
      split at hok
      · cases hok
      split at hok
      · cases hok
      exact parseTestcase_made h hok

theorem loop_made {env : CasesEnv} : ∀ (ls : List CLine) {st st' : CasesState}, Made env.outputGen st → (∀ l ∈ ls, LineFine l) →
    casesLoop env st ls = .ok st' → Made env.outputGen st'
  | [], _, _, h, _, hok => by cases hok; exact h
  | l :: ls, st, st', h, hl, hok => by
    simp only [casesLoop] at hok
    split at hok
    · cases hok
    next st1 h1 => exact loop_made ls (step_made h (hl l (by simp)) h1) (fun x hx => hl x (List.mem_cons_of_mem _ hx)) hok

theorem init_made {out : Nat → OutputGen} : Made out {} :=
  ⟨trivial, rfl, rfl, by intro n; simp [Taken], (by intro c hc; cases hc), (by intro c hc; cases hc)⟩

theorem chain_fill {out : Nat → OutputGen} {names : AMap Text Nat} {deps : AMap Nat (List Text)} {n : Nat} :
    ∀ (rev : List Entry), Chain out rev → Chain out (rev.map (fill names deps n)) ∧
      subCount (rev.map (fill names deps n)) = subCount rev ∧ testCount (rev.map (fill names deps n)) = testCount rev ∧
      ∀ m, Taken m (rev.map (fill names deps n)) ↔ Taken m rev
  | [], _ => ⟨trivial, rfl, rfl, fun _ => Iff.rfl⟩
  | .testcase t :: rev, h => by
    obtain ⟨h1, h2, h3, h4⟩ := chain_fill (names := names) (deps := deps) (n := n) rev h.2.2.2
    refine ⟨⟨?_, ?_, h.2.2.1, h1⟩, h2, congrArg (· + 1) h3, fun m => ?_⟩
    · rw [h2]; exact h.1
    · rw [h3]; exact h.2.1
    · rw [List.map_cons, show fill names deps n (.testcase t) = .testcase t from rfl, taken_testcase, taken_testcase, h4]
  | .subtask s :: rev, h => by
    obtain ⟨h1, h2, h3, h4⟩ := chain_fill (names := names) (deps := deps) (n := n) rev h.2.2.2
    obtain ⟨l, hl⟩ := fill_subtask names deps n s
    rw [List.map_cons, hl]
    refine ⟨⟨?_, h.2.1, ?_, h1⟩, congrArg (· + 1) h2, h3, fun m => ?_⟩
    · rw [h2]; exact h.1
    · intro m hm
      have := h.2.2.1 m hm
      rw [h4]; exact this
    · rw [taken_subtask, taken_subtask, h4]

/-- Everything from the reader of `cases.gen`. -/
theorem written_made {env : CasesEnv} {w : Writer} {content text : Text} {es : List Entry}
    (h : writeFromCases env w content = .ok (text, es)) : parseCasesGen env content = .ok es ∧ ∃ cs subs, text = writeGen w cs subs es ∧
      (∀ c ∈ cs, Plain c) ∧ (∀ cs ∈ subs, ∀ c ∈ cs, Plain c) ∧ Chain env.outputGen es.reverse := by
  unfold writeFromCases at h
  unfold parseCasesGen
  split at h
  · cases h
  next lines hp =>
  rw [hp]
  split at h
  · cases h
  next st hst =>
  split at h
  · cases h
  next es' hes =>
  cases h
  refine ⟨hes, _, _, rfl, ?_⟩
  have hm := loop_made lines init_made (linesOk_of (cases_syntax.1 hp)) hst
  refine ⟨hm.global, ?_, ?_⟩
  · intro cs hcs
    exact hm.locals cs (List.mem_reverse.1 hcs)
  · unfold interpCases at hes
    rw [hst] at hes
    simp only at hes
    split at hes
    · cases hes
    next es'' hr =>
    cases hes
    have hi := resolveAll_iff st.nameToId st.deps st.subtaskId st.rev.reverse
    by_cases hk : ∀ s, .subtask s ∈ st.rev.reverse → ∀ ds, st.deps.get? s.id = some ds →
        ∀ d ∈ ds, d = ['*'] ∨ (st.nameToId.get? d).isSome = true
    · have he := hi.1 hk
      rw [hr] at he
      cases he
      rw [← List.map_reverse, List.reverse_reverse]
      exact (chain_fill st.rev hm.chain).1
    · obtain ⟨e, he⟩ := hi.2 hk
      rw [hr] at he
      cases he

end TM.Format
