import Verif.Format.CasesInterp

/-!
# C38: `gen/cases.gen`

The meaning of the lines of a `gen/cases.gen` file is given in `Verif.Format.CasesSpec`, which does not
refer to the reader.
-/
namespace TM.Format
open TM AMap

/-! ## Specification -/

/-- The lines that follow a subtask up to the next subtask or testcase. -/
def annotations (post : List CLine) : List CLine := post.takeWhile fun l => !(isSub l || isTest l)

/-- Every comparison of a constraint `x o₁ x₁ o₂ x₂ ...` is true of the values of its operands. -/
def Satisfied (value : Text → Option Text) : CTerm → List (CmpOp × CTerm) → Prop
  | _, [] => True
  | x, (o, y) :: rest =>
    (∃ a b, termValue value x = some a ∧ termValue value y = some b ∧ o.Means a b) ∧
    Satisfied value y rest

/-- The values of all the operands of a constraint are known. -/
def Known (value : Text → Option Text) (x : CTerm) (rest : List (CmpOp × CTerm)) : Prop :=
  (termValue value x).isSome = true ∧ ∀ p ∈ rest, (termValue value p.2).isSome = true

/-- The generator, if any, and the text of the arguments of a testcase line. -/
def genOf (above : List CLine) : CLine → Option (Option Text × Text)
  | .testcase text => some (currentGen above, text)
  | .command (.run name args) => some (some name, args)
  | _ => none

/-! ## Properties -/

/-- **C38, accepted files.**  The reader accepts exactly the files of the specification. -/
theorem cases_accepts {env : CasesEnv} {lines : List CLine} :
    (∃ es, interpCases env lines = .ok es) ↔ CasesAccepted env lines := by
  constructor
  · rintro ⟨es, h⟩; exact (interpCases_ok h).1
  · intro h; exact ⟨_, ((interpCases_iff env lines).1 h).2⟩

/-- **C38, no panic.**  Whatever the content of the file, the reader ends with the entries or with an
error: it never panics. -/
theorem cases_never_panics (env : CasesEnv) (content : Text) :
    parseCasesGen env content ≠ .error .panic := by
  unfold parseCasesGen
  cases parseCases content with
  | none => simp
  | some lines =>
    simp only
    by_cases hc : CasesAccepted env lines
    · rw [((interpCases_iff env lines).1 hc).2]; simp
    · obtain ⟨e, he, hne⟩ := (interpCases_iff env lines).2 hc
      rw [he]
      intro h
      cases h
      exact hne rfl

/-- **C38, order.**  There is an entry for each `:SUBTASK` line and for each testcase, `:RUN` and `:COPY`
line, in the order of the file: a testcase belongs to the `:SUBTASK` line above it. -/
theorem cases_order {env : CasesEnv} {lines : List CLine} {es : List Entry}
    (h : interpCases env lines = .ok es) : es.map isTestcase = lines.filterMap fun l =>
      if isSub l then some false else if isTest l then some true else none := by
  obtain ⟨_, _, rfl⟩ := interpCases_ok h
  unfold casesEntries
  rw [List.map_map]
  have : (isTestcase ∘ fill (namesOf lines.reverse) (depsOf lines.reverse) (nSubs lines)) = isTestcase := by
    funext e; exact isTestcase_fill _ _ _ e
  rw [this, List.map_reverse, revEnt_kinds, List.filterMap_reverse, List.reverse_reverse]
  rfl

/-- **C38, numbers.**  In an accepted file subtasks and testcases are numbered `0, 1, 2, …` in the order
of the file, no testcase comes before the first subtask, and the dependencies are subtasks of the file,
in increasing order. -/
theorem cases_numbered {env : CasesEnv} {lines : List CLine} {es : List Entry}
    (h : interpCases env lines = .ok es) :
    stIds es = List.range (lines.filter isSub).length ∧
    tcIds es = List.range (lines.filter isTest).length ∧
    (∀ t rest, es ≠ .testcase t :: rest) ∧
    (∀ s, .subtask s ∈ es → s.dependencies.Pairwise (· < ·) ∧ ∀ d ∈ s.dependencies, d ∈ stIds es) ∧
    (∀ s, .subtask s ∈ es → s.testcases = [] ∧ s.owned = [] ∧ s.isDefault = false) := by
  obtain ⟨hc, ha, rfl⟩ := interpCases_ok h
  have hsub : ∀ s, Entry.subtask s ∈ casesEntries env lines → ∃ s' l,
      Entry.subtask s' ∈ revEnt env lines.reverse ∧ s = { s' with dependencies := l } ∧
      l.Pairwise (· < ·) ∧ ∀ d ∈ l, d < nSubs lines := by
    intro s hs
    unfold casesEntries at hs
    obtain ⟨e, he, hf⟩ := List.mem_map.1 hs
    rw [List.mem_reverse] at he
    cases e with
    | testcase t => cases hf
    | subtask s' =>
      obtain ⟨l, _, h2, h3, h4⟩ := casesEntries_subtask hc he
      rw [h2] at hf
      cases hf
      refine ⟨s', l, he, rfl, h3, ?_⟩
      intro d hd
      obtain ⟨w, _, ⟨_, h⟩ | ⟨_, h⟩⟩ := (h4 d).1 hd
      · exact h
      · have := names_lt ha h
        rwa [nSubs_reverse] at this
  refine ⟨casesEntries_stIds env lines, casesEntries_tcIds env lines, ?_, ?_, ?_⟩
  · intro t rest he
    have ho := cases_order h
    rw [he, List.map_cons] at ho
    -- the first line that makes an entry
    obtain ⟨pre, x, post, e1, hnone, hx⟩ : ∃ pre x post, lines = pre ++ x :: post ∧
        (∀ y ∈ pre, plain y = true) ∧ isTest x = true := by
      generalize List.map isTestcase rest = r at ho
      have hstart : isTestcase (.testcase t) = true := rfl
      rw [hstart] at ho
      clear he h
      induction lines with
      | nil => cases ho
      | cons l ls ih =>
        rw [List.filterMap_cons] at ho
        by_cases hs : isSub l = true
        · simp [hs] at ho
        · simp only [Bool.not_eq_true] at hs
          by_cases ht : isTest l = true
          · exact ⟨[], l, ls, rfl, by simp, ht⟩
          · simp only [Bool.not_eq_true] at ht
            simp only [hs, ht, Bool.false_eq_true, if_false] at ho
            have hpl : plain l = true := by simp [plain, hs, ht]
            have key : ∀ ls : List CLine, true :: r = (ls.filterMap fun l =>
                if isSub l then some false else if isTest l then some true else none) →
                ∃ pre x post, ls = pre ++ x :: post ∧ (∀ y ∈ pre, plain y = true) ∧ isTest x = true := by
              intro ls
              induction ls with
              | nil => intro ho; cases ho
              | cons l ls ih =>
                intro ho
                rw [List.filterMap_cons] at ho
                by_cases hs : isSub l = true
                · simp [hs] at ho
                · simp only [Bool.not_eq_true] at hs
                  by_cases ht : isTest l = true
                  · exact ⟨[], l, ls, rfl, by simp, ht⟩
                  · simp only [Bool.not_eq_true] at ht
                    simp only [hs, ht, Bool.false_eq_true, if_false] at ho
                    obtain ⟨pre, x, post, e, h1, h2⟩ := ih ho
                    refine ⟨l :: pre, x, post, by rw [e]; rfl, ?_, h2⟩
                    intro y hy
                    rcases List.mem_cons.1 hy with rfl | hy
                    · simp [plain, hs, ht]
                    · exact h1 y hy
            obtain ⟨pre, x, post, e, h1, h2⟩ := key ls ho
            refine ⟨l :: pre, x, post, by rw [e]; rfl, ?_, h2⟩
            intro y hy
            rcases List.mem_cons.1 hy with rfl | hy
            · exact hpl
            · exact h1 y hy
    have hl := hc.each pre x post e1
    have h0 : nSubs pre.reverse = 0 := nSubs_plain (fun y hy => hnone y (List.mem_reverse.1 hy))
    cases x with
    | testcase text => have := hl.1; omega
    | command c =>
      cases c with
      | copy p => have := hl.1; omega
      | run n a => have := hl.1; omega
      | _ => cases hx
    | _ => cases hx
  · intro s hs
    obtain ⟨s', l, _, rfl, h3, h4⟩ := hsub s hs
    refine ⟨h3, ?_⟩
    intro d hd
    rw [casesEntries_stIds, List.mem_range]
    exact h4 d hd
  · intro s hs
    obtain ⟨s', l, h1, rfl, _, _⟩ := hsub s hs
    exact (revEnt_fresh s' h1).2

/-- **C38 and C36.**  The entries of an accepted file are well numbered, so that loading them ends and
never panics, whatever the iteration order. -/
theorem cases_wellNumbered {env : CasesEnv} {lines : List CLine} {es : List Entry}
    (h : interpCases env lines = .ok es) : WellNumbered es := by
  obtain ⟨h1, h2, h3, h4, h5⟩ := cases_numbered h
  refine ⟨h3, ?_, fun s hs => ⟨(h5 s hs).1, (h5 s hs).2.1⟩, fun s hs => (h4 s hs).2, ?_⟩
  · rw [h1]; exact List.nodup_range
  · rw [h2]; exact List.pairwise_lt_range

/-- **C38, testcases.**  A testcase line or `:RUN` line makes the testcase with its number, whose input
comes from the generator in use with the arguments of the line; a `:COPY` line makes the testcase with
its number, whose input is the file. -/
theorem cases_testcase {env : CasesEnv} {lines : List CLine} {es : List Entry}
    (h : interpCases env lines = .ok es) {pre post : List CLine} {l : CLine}
    (e : lines = pre ++ l :: post) :
    (∀ gen text, genOf pre.reverse l = some (gen, text) → ∃ t g m args, .testcase t ∈ es ∧
      t.id = (pre.filter isTest).length ∧ t.output = env.outputGen t.id ∧
      gen = some g ∧ named env (pre.reverse.filterMap genDef) g = some m ∧
      env.split text = some args ∧ t.input = .custom m.source args) ∧
    (∀ path, l = .command (.copy path) → ∃ t, .testcase t ∈ es ∧
      t.id = (pre.filter isTest).length ∧ t.output = env.outputGen t.id ∧
      env.pathExists (env.join path) = true ∧ t.input = .staticFile (env.join path)) := by
  obtain ⟨hc, ha, rfl⟩ := interpCases_ok h
  have hl := hc.each pre l post e
  have hn : nTests pre.reverse = (pre.filter isTest).length := nTests_reverse pre
  constructor
  · intro gen text hg
    have hmk : ∀ g m args, gen = some g → named env (pre.reverse.filterMap genDef) g = some m →
        env.split text = some args → mkTest env pre.reverse gen text =
          .testcase ⟨(pre.filter isTest).length, .custom m.source args,
            env.outputGen (pre.filter isTest).length⟩ := by
      rintro g m args rfl hm hargs
      simp only [mkTest, Option.bind_some, hm, hargs, hn]
    have ht : isTest l = true ∧ revEnt env (l :: pre.reverse) = mkTest env pre.reverse gen text ::
        revEnt env pre.reverse ∧ TestOk env pre.reverse gen text := by
      cases l with
      | testcase t => cases hg; exact ⟨rfl, rfl, hl⟩
      | command c =>
        cases c with
        | run n a => cases hg; exact ⟨rfl, rfl, hl⟩
        | _ => cases hg
      | _ => cases hg
    obtain ⟨ht1, ht2, _, g, m, args, hgen, hm, hargs, _⟩ := ht
    obtain ⟨y, hy, hr⟩ := test_entry (env := env) e ht1
    rw [ht2, hmk g m args hgen hm hargs] at hr
    simp only [List.cons.injEq, and_true] at hr
    rw [← hr] at hy
    exact ⟨_, g, m, args, hy, rfl, rfl, hgen, hm, hargs, rfl⟩
  · rintro path rfl
    obtain ⟨y, hy, hr⟩ := test_entry (env := env) e rfl
    simp only [revEnt, List.cons.injEq, and_true, hn] at hr
    rw [← hr] at hy
    exact ⟨_, hy, rfl, rfl, hl.2, rfl⟩

/-- **C38, subtasks.**  A `:SUBTASK` line makes the subtask with its number, its score, its description
and its name; it depends on the subtasks named by the words of the `:STDEP` lines that follow it, on all
of them if one of the words is `*`; its validator is the one of the last `:VAL name` line that follows
it, or else the default validator. -/
theorem cases_subtask {env : CasesEnv} {lines : List CLine} {es : List Entry}
    (h : interpCases env lines = .ok es) {pre post : List CLine} {score : Text} {d : Option Text}
    (e : lines = pre ++ .command (.subtask score d) :: post) : ∃ s, .subtask s ∈ es ∧
      s.id = (pre.filter isSub).length ∧ s.maxScore = floatVal score ∧ s.description = d ∧
      s.name = d.map (·.filter fun c => c != ' ' && c != '\t') ∧
      (∀ k, k ∈ s.dependencies ↔ ∃ ws w, .command (.stDep ws) ∈ annotations post ∧ w ∈ ws ∧
        ∃ s', .subtask s' ∈ es ∧ s'.id = k ∧ (w = ['*'] ∨ s'.name = some w)) ∧
      ((∀ n, CLine.command (.valSelect n) ∉ annotations post) →
        startValidator env pre.reverse s.name = some s.validator) ∧
      (∀ a n b, annotations post = a ++ .command (.valSelect n) :: b →
        (∀ n', CLine.command (.valSelect n') ∉ b) →
        validatorOf env (a.reverse ++ .command (.subtask score d) :: pre.reverse) s.id s.name n =
          some s.validator) := by
  obtain ⟨hc, ha, rfl⟩ := interpCases_ok h
  have hin := sub_entry (env := env) e
  obtain ⟨l, h1, _, h3, h4⟩ := casesEntries_subtask hc hin
  have hl := hc.each pre _ post e
  have hplain : annotations post = post.takeWhile plain := rfl
  refine ⟨_, h1, rfl, rfl, rfl, rfl, ?_, ?_, ?_⟩
  · intro k
    simp only
    rw [h4]
    simp only [hplain]
    have hw := fun w => words_iff ha e (x := .command (.subtask score d)) rfl w
    have hst := casesEntries_stIds env lines
    have hname : ∀ w k, (namesOf lines.reverse).get? w = some k ↔
        ∃ s', .subtask s' ∈ casesEntries env lines ∧ s'.id = k ∧ s'.name = some w := by
      intro w k
      rw [names_iff ha]
      constructor
      · rintro ⟨s, hs, hn, hi⟩
        obtain ⟨l, g1, _⟩ := casesEntries_subtask hc hs
        exact ⟨_, g1, hi, hn⟩
      · rintro ⟨s', hs', hi, hn⟩
        unfold casesEntries at hs'
        obtain ⟨x, hx, hf⟩ := List.mem_map.1 hs'
        rw [List.mem_reverse] at hx
        cases x with
        | testcase t => cases hf
        | subtask s0 =>
          obtain ⟨l, hl'⟩ := fill_subtask (namesOf lines.reverse) (depsOf lines.reverse) (nSubs lines) s0
          rw [hl'] at hf
          cases hf
          exact ⟨s0, hx, hn, hi⟩
    constructor
    · rintro ⟨w, hmem, ⟨rfl, hlt⟩ | ⟨_, hg⟩⟩
      · obtain ⟨ws, g1, g2⟩ := (hw _).1 hmem
        have : k ∈ stIds (casesEntries env lines) := by rw [hst, List.mem_range]; exact hlt
        obtain ⟨s', hs', hid⟩ := mem_stIds.1 this
        exact ⟨ws, _, g1, g2, s', hs', hid, .inl rfl⟩
      · obtain ⟨ws, g1, g2⟩ := (hw _).1 hmem
        obtain ⟨s', hs', hi, hn⟩ := (hname w k).1 hg
        exact ⟨ws, w, g1, g2, s', hs', hi, .inr hn⟩
    · rintro ⟨ws, w, g1, g2, s', hs', hi, hor⟩
      refine ⟨w, (hw w).2 ⟨ws, g1, g2⟩, ?_⟩
      have hlt : k < nSubs lines := by
        have := mem_stIds.2 ⟨s', hs', hi⟩
        rwa [hst, List.mem_range] at this
      by_cases hstar : w = ['*']
      · exact .inl ⟨hstar, hlt⟩
      · exact .inr ⟨hstar, (hname w k).2 ⟨s', hs', hi, hor.resolve_left hstar⟩⟩
  · intro hno
    have hv : ∀ (b : List CLine) (a : List CLine) (v : Validator),
        (∀ n, CLine.command (.valSelect n) ∉ b) → valAt env a v b = v := by
      intro b
      induction b with
      | nil => intro a v _; rfl
      | cons x b ih =>
        intro a v hb
        have hb' : ∀ n, CLine.command (.valSelect n) ∉ b := fun n hn => hb n (by simp [hn])
        have hx : ∀ n, x ≠ .command (.valSelect n) := by rintro n rfl; exact hb n (by simp)
        refine Eq.trans ?_ (ih a v hb')
        cases x with
        | command c => cases c <;> first | rfl | exact absurd rfl (hx _)
        | _ => rfl
    simp only
    rw [hv _ _ _ (fun n hn => hno n (by rw [hplain]; exact List.mem_reverse.1 hn))]
    obtain ⟨v, hsv⟩ := Option.isSome_iff_exists.1 hl.2
    rw [hsv]; rfl
  · intro a n b he hno
    rw [hplain] at he
    simp only
    have hv : ∀ (b' : List CLine) (r : List CLine) (v : Validator),
        (∀ n, CLine.command (.valSelect n) ∉ b') →
        valAt env (.command (.subtask score d) :: pre.reverse) v (b' ++ .command (.valSelect n) :: r) =
        (validatorOf env (r ++ .command (.subtask score d) :: pre.reverse)
          (nSubs (r ++ .command (.subtask score d) :: pre.reverse) - 1)
          (currentName (r ++ .command (.subtask score d) :: pre.reverse)) n).getD .assumeValid := by
      intro b'
      induction b' with
      | nil => intro r v _; rfl
      | cons x b' ih =>
        intro r v hb
        have hb' : ∀ n, CLine.command (.valSelect n) ∉ b' := fun n hn => hb n (by simp [hn])
        have hx : ∀ n, x ≠ .command (.valSelect n) := by rintro n rfl; exact hb n (by simp)
        refine Eq.trans ?_ (ih r v hb')
        cases x with
        | command c => cases c <;> first | rfl | exact absurd rfl (hx _)
        | _ => rfl
    have hrev : (post.takeWhile plain).reverse = b.reverse ++ .command (.valSelect n) :: a.reverse := by
      rw [he]; simp
    rw [hrev, hv _ _ _ (fun n' hn => hno n' (List.mem_reverse.1 hn))]
    have hpa : ∀ y ∈ a.reverse, plain y = true := fun y hy =>
      takeWhile_sat (p := plain) (l := post) y (by rw [he]; simp [List.mem_reverse.1 hy])
    have hnum : nSubs (a.reverse ++ .command (.subtask score d) :: pre.reverse) - 1 = nSubs pre := by
      rw [nSubs_append, nSubs_plain hpa, nSubs_cons, nSubs_reverse]; simp [isSub]
    have hcur : currentName (a.reverse ++ .command (.subtask score d) :: pre.reverse) = d.map nameOf := by
      generalize hq : a.reverse = q at hpa
      clear hq hnum hrev
      induction q with
      | nil => simp [currentName, fromSub, isSub, subName]
      | cons y q ih =>
        have hy := hpa y (by simp)
        simp [plain] at hy
        rw [List.cons_append, currentName_cons hy.1]
        exact ih (fun z hz => hpa z (by simp [hz]))
    rw [hnum, hcur]
    -- the line was accepted
    have hacc := hc.each (pre ++ .command (.subtask score d) :: a) (.command (.valSelect n))
      (b ++ post.dropWhile plain) (by
        rw [e]
        have := List.takeWhile_append_dropWhile (p := plain) (l := post)
        rw [he] at this
        simp only [List.append_assoc, List.cons_append] at this ⊢
        rw [this])
    have hs := hacc.2
    simp only [List.reverse_append, List.reverse_cons, List.append_assoc, List.singleton_append] at hs
    rw [hnum, hcur] at hs
    obtain ⟨v, hv'⟩ := Option.isSome_iff_exists.1 hs
    simp only [hv', Option.getD_some]

/-- **C38, constraints.**  In an accepted file the arguments of each testcase line and of each `:RUN`
line satisfy all the constraints above the first subtask and all those of the subtask above the line,
as long as the values of all the operands are known: a variable has a value when it is a parameter of
the generator (and the line has that argument), `ST_NUM`, `ST_NAME` or `INPUT`, and the value is a
number. -/
theorem cases_constraints {env : CasesEnv} {lines : List CLine} {es : List Entry}
    (h : interpCases env lines = .ok es) {pre post : List CLine} {l : CLine}
    (e : lines = pre ++ l :: post) {gen : Option Text} {text : Text}
    (hl : genOf pre.reverse l = some (gen, text)) : ∃ g m args,
      gen = some g ∧ named env (pre.reverse.filterMap genDef) g = some m ∧ env.split text = some args ∧
      ∀ x rest, InForce pre.reverse (x, rest) →
        Known (varValue m.args args (nSubs pre - 1) (currentName pre.reverse)) x rest →
        Satisfied (varValue m.args args (nSubs pre - 1) (currentName pre.reverse)) x rest := by
  obtain ⟨hc, _, rfl⟩ := interpCases_ok h
  have hok : TestOk env pre.reverse gen text := by
    have := hc.each pre l post e
    cases l with
    | testcase t => cases hl; exact this
    | command c =>
      cases c with
      | run n a => cases hl; exact this
      | _ => cases hl
    | _ => cases hl
  obtain ⟨_, g, m, args, h1, h2, h3, h4⟩ := hok
  refine ⟨g, m, args, h1, h2, h3, ?_⟩
  intro x rest hin hk
  have hv := h4 (x, rest) hin
  rw [nSubs_reverse] at hv
  generalize varValue m.args args (nSubs pre - 1) (currentName pre.reverse) = value at hv hk
  simp only at hv
  clear hin
  induction rest generalizing x with
  | nil => exact trivial
  | cons p rest ih =>
    obtain ⟨o, y⟩ := p
    obtain ⟨a, ha⟩ := Option.isSome_iff_exists.1 hk.1
    obtain ⟨b, hb⟩ := Option.isSome_iff_exists.1 (hk.2 (o, y) (by simp))
    simp only [Violated, not_exists, not_and] at hv
    have := hv a b ha hb
    have hno : o.Means a b ∧ ¬ Violated value y rest := by
      constructor
      · exact Classical.byContradiction fun hn => this (.inl hn)
      · exact fun hn => this (.inr hn)
    exact ⟨⟨a, b, ha, hb, hno.1⟩, ih y hno.2 ⟨by rw [hb]; rfl, fun p hp => hk.2 p (by simp [hp])⟩⟩

/-! ## Concrete files -/

/-- Words separated by spaces. -/
def wordsOf : Text → Text → List Text
  | acc, [] => if acc.isEmpty then [] else [acc.reverse]
  | acc, c :: cs =>
    if c == ' ' then (if acc.isEmpty then wordsOf [] cs else acc.reverse :: wordsOf [] cs)
    else wordsOf (c :: acc) cs

def casesEnv0 : CasesEnv where
  outputGen := fun _ => .custom "sol.py".toList
  join := fun p => "/t/".toList ++ p
  pathExists := fun p => p != "/t/missing".toList
  source := fun p => some p
  split := fun s => some (wordsOf [] s)

def casesFile : Text :=
  (":GEN g gen/g.py N M\n:VAL v val.py\n:CONSTRAINT 1 <= $N <= 10\n:SUBTASK 30.5 first one\n" ++
   ":CONSTRAINT $M < 5\n1 2\n3 4 # c\n:SUBTASK 70\n:STDEP *\n5 60\n:RUN g 7 8\n:COPY foo.txt\n").toList

/-- The file of the example is accepted, with two subtasks and five testcases. -/
example : (match parseCasesGen casesEnv0 casesFile with
    | .ok es => decide (es = [
        .subtask { id := 0, maxScore := 30 + 5 / 10, name := some "firstone".toList
                   description := some "first one".toList
                   validator := .custom "/t/val.py".toList [validationFile, "0".toList] },
        .testcase ⟨0, .custom "/t/gen/g.py".toList ["1".toList, "2".toList], .custom "sol.py".toList⟩,
        .testcase ⟨1, .custom "/t/gen/g.py".toList ["3".toList, "4".toList], .custom "sol.py".toList⟩,
        .subtask { id := 1, maxScore := 70, dependencies := [0, 1]
                   validator := .custom "/t/val.py".toList [validationFile, "1".toList] },
        .testcase ⟨2, .custom "/t/gen/g.py".toList ["5".toList, "60".toList], .custom "sol.py".toList⟩,
        .testcase ⟨3, .custom "/t/gen/g.py".toList ["7".toList, "8".toList], .custom "sol.py".toList⟩,
        .testcase ⟨4, .staticFile "/t/foo.txt".toList, .custom "sol.py".toList⟩])
    | .error _ => false) = true := by decide +kernel

/-- What happens to some texts. -/
def verdicts (l : List String) : List (Option CasesErr) :=
  l.map fun s => match parseCasesGen casesEnv0 s.toList with | .ok _ => none | .error e => some e

/-- Rejected files: a testcase with no subtask, with no generator, that violates a global constraint or
one of its subtask; a generator defined twice, missing, unknown; a constraint in two directions; a
validator chosen after a testcase; a name used twice; an unknown dependency. -/
example : verdicts [
    ":GEN g g.py N\n1", ":SUBTASK 1\n1", ":GEN g g.py N\n:CONSTRAINT $N < 5\n:SUBTASK 1\n5",
    ":GEN g g.py N\n:SUBTASK 1\n:CONSTRAINT $N < 5\n4\n5", ":GEN g g.py N\n:GEN g g.py M",
    ":GEN g missing N", ":SUBTASK 1\n:RUN g 5", ":CONSTRAINT 1 < $N > 3",
    ":GEN g g.py N\n:VAL v v.py $INPUT\n:SUBTASK 1\n4\n:VAL v", ":SUBTASK 1 a b\n:SUBTASK 2 ab",
    ":SUBTASK 1 a\n:STDEP b", ":SUBTASK x"] =
    [some .noSubtask, some .noGenerator, some .violated, some .violated, some .duplicateManager,
     some .notFound, some .unknownGenerator, some .mixedDirections, some .notAfterSubtask,
     some .duplicateName, some .unknownName, some .syntax] := by decide +kernel

/-- The constraints of a subtask do not apply to the others. -/
example : verdicts [":GEN g g.py N\n:SUBTASK 1\n:CONSTRAINT $N < 5\n4\n:SUBTASK 2\n5"] = [none] := by
  decide +kernel

/-! ## What does not hold

The full property: *the arguments of every testcase satisfy every constraint in force* (no condition on
the operands), and *blank lines make no testcase*.  Both fail. -/

/-- A constraint whose first operand is not known is not checked at all, although the second
comparison is false of the testcase. -/
theorem unknown_hides_comparison : verdicts
    [":GEN g g.py N\n:CONSTRAINT $X <= $N <= 10\n:SUBTASK 1\n100",
     ":GEN g g.py N\n:CONSTRAINT 1 <= $N <= 10\n:SUBTASK 1\n100"] = [none, some .violated] := by
  decide +kernel

/-- Without spaces around the operators the rest of the constraint is part of the name of the variable,
and the constraint is never checked. -/
theorem unspaced_constraint_ignored :
    parseCases ":CONSTRAINT 1<=$N<=10".toList =
      some [.command (.constraint (.number "1".toList) [(.lessEqual, .var "N<=10".toList)])] ∧
    verdicts [":GEN g g.py N\n:CONSTRAINT 1<=$N<=10\n:SUBTASK 1\n100"] = [none] := by
  decide +kernel

/-- A line of blanks is a testcase without arguments, and so is an indented comment. -/
theorem blank_line_is_testcase :
    parseCases "  \n\t# note\n\n# note".toList =
      some [.testcase "  ".toList, .testcase "\t".toList, .empty, .comment] ∧
    (match parseCasesGen casesEnv0 ":GEN g g.py N\n:SUBTASK 1\n1\n  \n".toList with
      | .ok es => tcIds es == [0, 1]
      | .error _ => false) = true := by
  decide +kernel

end TM.Format
