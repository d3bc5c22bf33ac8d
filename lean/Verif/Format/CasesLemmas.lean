import Verif.Format.CasesSpec

/-!
# The state of the reader of `gen/cases.gen` as a function of the lines read
-/
namespace TM.Format
open TM AMap

/-! ## Constraints -/

def toOperand : CTerm → Operand
  | .number t => .const ((parseI64 t).getD 0)
  | .var v => .var v

def toC (c : CTerm × List (CmpOp × CTerm)) : Constraint :=
  { operands := toOperand c.1 :: c.2.map fun p => toOperand p.2, operators := c.2.map (·.1) }

/-- All the operators of a list have a direction, or none. -/
def dirOk (b : Bool) (rest : List (CmpOp × CTerm)) : Prop :=
  ∀ p ∈ rest, p.1.direction = some b ∨ p.1.direction = none

theorem oneDirection_iff {rest : List (CmpOp × CTerm)} :
    OneDirection rest ↔ dirOk true rest ∨ dirOk false rest := by
  have h : ∀ o : CmpOp, (o.direction = some true ∨ o.direction = none) ↔
      (o = .less ∨ o = .lessEqual ∨ o = .equal) := by intro o; cases o <;> simp [CmpOp.direction]
  have h' : ∀ o : CmpOp, (o.direction = some false ∨ o.direction = none) ↔
      (o = .greater ∨ o = .greaterEqual ∨ o = .equal) := by
    intro o; cases o <;> simp [CmpOp.direction]
  simp only [OneDirection, dirOk, h, h']

theorem items_some (b : Bool) (rest : List (CmpOp × CTerm)) : ∀ c : Constraint,
    (dirOk b rest → (∀ p ∈ rest, InRange p.2) →
      constraintItems c (some b) (rest.flatMap fun p => [.op p.1, .term p.2]) =
        .ok { operands := c.operands ++ rest.map fun p => toOperand p.2
              operators := c.operators ++ rest.map (·.1) }) ∧
    (¬ (dirOk b rest ∧ ∀ p ∈ rest, InRange p.2) →
      ∃ e, constraintItems c (some b) (rest.flatMap fun p => [.op p.1, .term p.2]) = .error e ∧
        e ≠ .panic) := by
  induction rest with
  | nil =>
    intro c
    refine ⟨fun _ _ => by simp [constraintItems], fun h => ?_⟩
    exact absurd ⟨by intro p hp; simp at hp, by intro p hp; simp at hp⟩ h
  | cons p rest ih =>
    intro c
    obtain ⟨o, t⟩ := p
    simp only [List.flatMap_cons, List.cons_append, List.nil_append, constraintItems,
      Option.isNone_some, Bool.false_eq_true, if_false]
    by_cases hd : o.direction = some b ∨ o.direction = none
    · have hcond : (o.direction.isSome && (some b != o.direction)) = false := by
        rcases hd with hd | hd <;> simp [hd]
      rw [if_neg (by simp [hcond])]
      cases t with
      | number n =>
        simp only [constraintItems]
        cases hn : parseI64 n with
        | none =>
          refine ⟨fun _ h => ?_, fun _ => ⟨_, rfl, by simp⟩⟩
          have := h (o, .number n) (by simp)
          simp [InRange, hn] at this
        | some k =>
          obtain ⟨h1, h2⟩ := ih { operators := c.operators ++ [o], operands := c.operands ++ [.const k] }
          constructor
          · intro ha hb
            simp only
            rw [h1 (fun p hp => ha p (by simp [hp])) (fun p hp => hb p (by simp [hp]))]
            simp [toOperand, hn]
          · intro hnot
            simp only
            apply h2
            rintro ⟨ha, hb⟩
            apply hnot
            refine ⟨?_, ?_⟩
            · intro p hp
              rcases List.mem_cons.1 hp with rfl | hp
              · exact hd
              · exact ha p hp
            · intro p hp
              rcases List.mem_cons.1 hp with rfl | hp
              · simp [InRange, hn]
              · exact hb p hp
      | var v =>
        simp only [constraintItems]
        obtain ⟨h1, h2⟩ := ih { operators := c.operators ++ [o], operands := c.operands ++ [.var v] }
        constructor
        · intro ha hb
          rw [h1 (fun p hp => ha p (by simp [hp])) (fun p hp => hb p (by simp [hp]))]
          simp [toOperand]
        · intro hnot
          apply h2
          rintro ⟨ha, hb⟩
          apply hnot
          refine ⟨?_, ?_⟩
          · intro p hp
            rcases List.mem_cons.1 hp with rfl | hp
            · exact hd
            · exact ha p hp
          · intro p hp
            rcases List.mem_cons.1 hp with rfl | hp
            · simp [InRange]
            · exact hb p hp
    · have hcond : (o.direction.isSome && (some b != o.direction)) = true := by
        cases hx : o.direction with
        | none => exact absurd (.inr hx) hd
        | some b' =>
          simp only [Option.isSome_some, Bool.true_and, bne_iff_ne, ne_eq, Option.some.injEq]
          intro hb; subst hb; exact hd (.inl hx)
      rw [if_pos hcond]
      refine ⟨fun ha _ => absurd (ha (o, t) (by simp)) hd, fun _ => ⟨_, rfl, by simp⟩⟩

theorem items_none (rest : List (CmpOp × CTerm)) : ∀ c : Constraint,
    (OneDirection rest → (∀ p ∈ rest, InRange p.2) →
      constraintItems c none (rest.flatMap fun p => [.op p.1, .term p.2]) =
        .ok { operands := c.operands ++ rest.map fun p => toOperand p.2
              operators := c.operators ++ rest.map (·.1) }) ∧
    (¬ (OneDirection rest ∧ ∀ p ∈ rest, InRange p.2) →
      ∃ e, constraintItems c none (rest.flatMap fun p => [.op p.1, .term p.2]) = .error e ∧
        e ≠ .panic) := by
  induction rest with
  | nil =>
    intro c
    refine ⟨fun _ _ => by simp [constraintItems], fun h => ?_⟩
    exact absurd ⟨.inl (by intro p hp; simp at hp), by intro p hp; simp at hp⟩ h
  | cons p rest ih =>
    intro c
    obtain ⟨o, t⟩ := p
    have hgen : ∀ dir : Option Bool, dir = o.direction → 
        ∀ c : Constraint, 
        (OneDirection ((o, t) :: rest) → (∀ p ∈ rest, InRange p.2) →
          constraintItems c dir (rest.flatMap fun p => [.op p.1, .term p.2]) =
            .ok { operands := c.operands ++ rest.map fun p => toOperand p.2
                  operators := c.operators ++ rest.map (·.1) }) ∧
        (¬ (OneDirection ((o, t) :: rest) ∧ ∀ p ∈ rest, InRange p.2) →
          ∃ e, constraintItems c dir (rest.flatMap fun p => [.op p.1, .term p.2]) = .error e ∧
            e ≠ .panic) := by
      intro dir hdir c
      cases hx : o.direction with
      | none =>
        rw [hdir, hx]
        have : OneDirection ((o, t) :: rest) ↔ OneDirection rest := by
          rw [oneDirection_iff, oneDirection_iff]
          simp [dirOk, hx]
        rw [this]
        exact ih c
      | some b =>
        rw [hdir, hx]
        have : OneDirection ((o, t) :: rest) ↔ dirOk b rest := by
          rw [oneDirection_iff]
          cases b <;> simp [dirOk, hx]
        rw [this]
        exact items_some b rest c
    simp only [List.flatMap_cons, List.cons_append, List.nil_append, constraintItems,
      Option.isNone_none, if_true]
    rw [if_neg (by simp)]
    cases t with
    | number n =>
      simp only [constraintItems]
      cases hn : parseI64 n with
      | none =>
        refine ⟨fun _ h => ?_, fun _ => ⟨_, rfl, by simp⟩⟩
        have := h (o, .number n) (by simp)
        simp [InRange, hn] at this
      | some k =>
        obtain ⟨h1, h2⟩ := hgen _ rfl { operators := c.operators ++ [o], operands := c.operands ++ [.const k] }
        constructor
        · intro ha hb
          simp only
          rw [h1 ha (fun p hp => hb p (by simp [hp]))]
          simp [toOperand, hn]
        · intro hnot
          simp only
          apply h2
          rintro ⟨ha, hb⟩
          apply hnot
          refine ⟨ha, ?_⟩
          intro p hp
          rcases List.mem_cons.1 hp with rfl | hp
          · simp [InRange, hn]
          · exact hb p hp
    | var v =>
      simp only [constraintItems]
      obtain ⟨h1, h2⟩ := hgen _ rfl { operators := c.operators ++ [o], operands := c.operands ++ [.var v] }
      constructor
      · intro ha hb
        rw [h1 ha (fun p hp => hb p (by simp [hp]))]
        simp [toOperand]
      · intro hnot
        apply h2
        rintro ⟨ha, hb⟩
        apply hnot
        refine ⟨ha, ?_⟩
        intro p hp
        rcases List.mem_cons.1 hp with rfl | hp
        · simp [InRange]
        · exact hb p hp

theorem items_all (x : CTerm) (xs : List (CmpOp × CTerm)) :
    (InRange x → (∀ p ∈ xs, InRange p.2) → OneDirection xs →
      constraintItems {} none (flatItems x xs) = .ok (toC (x, xs))) ∧
    (¬ (InRange x ∧ (∀ p ∈ xs, InRange p.2) ∧ OneDirection xs) →
      ∃ e, constraintItems {} none (flatItems x xs) = .error e ∧ e ≠ .panic) := by
  unfold flatItems
  cases x with
  | number n =>
    simp only [constraintItems]
    cases hn : parseI64 n with
    | none => exact ⟨fun h => by simp [InRange, hn] at h, fun _ => ⟨_, rfl, by simp⟩⟩
    | some k =>
      obtain ⟨h1, h2⟩ := items_none xs { operands := [.const k] }
      constructor
      · intro _ hb ha
        simp only [List.nil_append]
        rw [h1 ha hb]
        simp [toC, toOperand, hn]
      · intro hnot
        simp only [List.nil_append]
        apply h2
        rintro ⟨ha, hb⟩
        exact hnot ⟨by simp [InRange, hn], hb, ha⟩
  | var v =>
    simp only [constraintItems]
    obtain ⟨h1, h2⟩ := items_none xs { operands := [.var v] }
    constructor
    · intro _ hb ha
      simp only [List.nil_append]
      rw [h1 ha hb]
      simp [toC, toOperand]
    · intro hnot
      simp only [List.nil_append]
      apply h2
      rintro ⟨ha, hb⟩
      exact hnot ⟨by simp [InRange], hb, ha⟩

theorem holds_iff (o : CmpOp) (a b : Int) : o.holds a b = true ↔ o.Means a b := by
  cases o <;> simp [CmpOp.holds, CmpOp.Means]

theorem value_eq {vars : AMap Text Text} {value : Text → Option Text} (h : ∀ x, vars.get? x = value x)
    {t : CTerm} (ht : InRange t) : (toOperand t).value vars = termValue value t := by
  cases t with
  | number n =>
    simp only [InRange] at ht
    obtain ⟨k, hk⟩ := Option.isSome_iff_exists.1 ht
    simp [toOperand, Operand.value, termValue, hk]
  | var v =>
    simp only [toOperand, Operand.value, termValue, h]
    cases value v <;> rfl

theorem chain_iff {vars : AMap Text Text} {value : Text → Option Text} (h : ∀ x, vars.get? x = value x)
    (xs : List (CmpOp × CTerm)) : ∀ (x : CTerm) (a : Int), termValue value x = some a →
    (∀ p ∈ xs, InRange p.2) →
    (chainValid vars a ((xs.map (·.1)).zip (xs.map fun p => toOperand p.2)) = some false ↔
      Violated value x xs) := by
  induction xs with
  | nil => intro x a _ _; simp [chainValid, Violated]
  | cons p xs ih =>
    obtain ⟨o, y⟩ := p
    intro x a hx hr
    simp only [List.map_cons, List.zip_cons_cons, chainValid, Violated]
    rw [value_eq h (hr (o, y) (by simp))]
    cases hy : termValue value y with
    | none => simp
    | some b =>
      simp only [hx]
      have ih' := ih y b hy (fun p hp => hr p (by simp [hp]))
      by_cases hh : o.holds a b = true
      · simp only [hh, Bool.not_true, Bool.false_eq_true, if_false, ih']
        constructor
        · intro hv; exact ⟨a, b, rfl, rfl, .inr hv⟩
        · rintro ⟨a', b', ha, hb, hor⟩
          cases ha; cases hb
          rcases hor with hor | hor
          · exact absurd ((holds_iff o a b).1 hh) hor
          · exact hor
      · have hh' : o.holds a b = false := by cases ho : o.holds a b <;> simp_all
        simp only [hh', Bool.not_false, if_true, true_iff]
        refine ⟨a, b, rfl, rfl, .inl ?_⟩
        intro hm; exact hh ((holds_iff o a b).2 hm)

/-- Terms in range, at least one comparison. -/
def CGood (c : CTerm × List (CmpOp × CTerm)) : Prop :=
  c.2 ≠ [] ∧ InRange c.1 ∧ ∀ p ∈ c.2, InRange p.2

theorem isValid_iff {vars : AMap Text Text} {value : Text → Option Text}
    (h : ∀ x, vars.get? x = value x) {c : CTerm × List (CmpOp × CTerm)} (hc : CGood c) :
    (∃ o, (toC c).isValid vars = .ok o) ∧
    ((toC c).isValid vars = .ok (some false) ↔ Violated value c.1 c.2) := by
  obtain ⟨x, xs⟩ := c
  obtain ⟨hne, hx, hxs⟩ := hc
  simp only at hne hx hxs
  simp only [Constraint.isValid, toC]
  rw [value_eq h hx]
  cases hv : termValue value x with
  | none =>
    simp only [Except.ok.injEq, reduceCtorEq, false_iff]
    refine ⟨⟨_, rfl⟩, ?_⟩
    cases xs with
    | nil => exact absurd rfl hne
    | cons p xs =>
      obtain ⟨o, y⟩ := p
      rintro ⟨a, b, ha, _⟩
      rw [hv] at ha; cases ha
  | some a =>
    simp only [Except.ok.injEq]
    exact ⟨⟨_, rfl⟩, chain_iff h xs x a hv hxs⟩

theorem checkAll_iff {vars : AMap Text Text} {value : Text → Option Text}
    (h : ∀ x, vars.get? x = value x) (cs : List (CTerm × List (CmpOp × CTerm))) :
    (∀ c ∈ cs, CGood c) →
    ((∀ c ∈ cs, ¬ Violated value c.1 c.2) → checkAll vars (cs.map toC) = .ok ()) ∧
    (¬ (∀ c ∈ cs, ¬ Violated value c.1 c.2) → checkAll vars (cs.map toC) = .error .violated) := by
  induction cs with
  | nil => intro _; exact ⟨fun _ => rfl, fun h => absurd (by intro c hc; simp at hc) h⟩
  | cons c cs ih =>
    intro hg
    obtain ⟨⟨o, ho⟩, hiff⟩ := isValid_iff h (hg c (by simp))
    obtain ⟨h1, h2⟩ := ih (fun c hc => hg c (by simp [hc]))
    simp only [List.map_cons, checkAll, ho]
    by_cases hv : Violated value c.1 c.2
    · have := hiff.2 hv
      rw [ho] at this
      cases this
      exact ⟨fun hn => absurd hv (hn c (by simp)), fun _ => rfl⟩
    · have hne : o ≠ some false := by
        intro hc; rw [hc] at ho; exact hv (hiff.1 ho)
      have hred : (match (Except.ok o : Except CasesErr (Option Bool)) with
          | .error e => (.error e : Except CasesErr Unit)
          | .ok (some false) => .error .violated
          | .ok _ => checkAll vars (cs.map toC)) = checkAll vars (cs.map toC) := by
        cases o with
        | none => rfl
        | some b => cases b with
          | false => exact absurd rfl hne
          | true => rfl
      constructor
      · intro hall
        exact hred.trans (h1 (fun c hc => hall c (by simp [hc])))
      · intro hnot
        refine hred.trans (h2 ?_)
        intro hall
        apply hnot
        intro c' hc'
        rcases List.mem_cons.1 hc' with rfl | hc'
        · exact hv
        · exact hall c' hc'

end TM.Format
