import Verif.BadCase.Spec
/-!
# Lemmas for the search of a bad case
-/
namespace TM.BadCase
open TM TM.Build BadCase.Spec

variable {args : List String} {size : Nat} {seed : Nat → Nat} {prompt : Bool}

/-! ## Batches -/

theorem mem_batch {k tc : Nat} : tc ∈ (batchesOf args size seed k).keys ↔ k * size ≤ tc ∧ tc < k * size + size := by
  unfold batchesOf makeBatch AMap.keys
  simp only [List.map_map, List.mem_map, List.mem_range, Function.comp]
  constructor
  · rintro ⟨j, hj, rfl⟩; omega
  · intro h; exact ⟨tc - k * size, by omega, by omega⟩

theorem batch_get {k tc : Nat} {c : Case} (h : (batchesOf args size seed k).get? tc = some c) :
    c = ⟨argsFor args (seed tc), seed tc⟩ := by
  have := AMap.mem_of_get? h
  unfold batchesOf makeBatch at this
  simp only [List.mem_map, List.mem_range] at this
  obtain ⟨j, -, h⟩ := this
  cases h
  rfl

theorem batch_has {k tc : Nat} (h : tc ∈ (batchesOf args size seed k).keys) :
    (batchesOf args size seed k).get? tc = some ⟨argsFor args (seed tc), seed tc⟩ := by
  obtain ⟨c, hc⟩ := AMap.mem_keys_iff.1 h
  rw [hc, batch_get hc]

/-- A testcase is of one batch. -/
theorem batch_unique {k k' tc : Nat} (h : tc ∈ (batchesOf args size seed k).keys)
    (h' : tc ∈ (batchesOf args size seed k').keys) : k = k' := by
  rw [mem_batch] at h h'
  rcases Nat.lt_trichotomy k k' with hlt | rfl | hlt
  · have := Nat.mul_le_mul_right size (show k + 1 ≤ k' from hlt)
    rw [Nat.add_mul] at this
    omega
  · rfl
  · have := Nat.mul_le_mul_right size (show k' + 1 ≤ k from hlt)
    rw [Nat.add_mul] at this
    omega

/-! ## Statuses -/

theorem lastSaid_snoc (l : List (Nat × Msg)) (k : Nat) (m : Msg) (k' tc : Nat) :
    lastSaid (l ++ [(k, m)]) k' tc =
      match says m with
      | some (tc', s) => if k = k' ∧ tc' = tc then s else lastSaid l k' tc
      | none => lastSaid l k' tc := by
  unfold lastSaid
  rw [List.filterMap_append, List.filter_append]
  cases hs : says m with
  | none => by_cases hk : k = k' <;> simp [hk, hs]
  | some x =>
    obtain ⟨tc', s⟩ := x
    by_cases hk : k = k'
    · by_cases ht : tc' = tc <;> simp [hk, hs, ht]
    · simp [hk]

def row (size : Nat) (l : List (Nat × Msg)) (k : Nat) : List TcStatus :=
  (List.range size).map (fun j => lastSaid l k (k * size + j))

def rows (size : Nat) (l : List (Nat × Msg)) (n : Nat) : List (List TcStatus) := (List.range n).map (row size l)

theorem row_other {l : List (Nat × Msg)} {k k' : Nat} {m : Msg} (h : says m = none ∨ k ≠ k') :
    row size (l ++ [(k, m)]) k' = row size l k' := by
  unfold row
  refine List.map_congr_left (fun j _ => ?_)
  rw [lastSaid_snoc]
  rcases h with h | h
  · rw [h]
  · split
    · rw [if_neg (fun e => h e.1)]
    · rfl

theorem row_set {l : List (Nat × Msg)} {k tc : Nat} {m : Msg} {s : TcStatus} (h : says m = some (tc, s))
    (h1 : k * size ≤ tc) (h2 : tc < k * size + size) :
    row size (l ++ [(k, m)]) k = (row size l k).set (tc % size) s := by
  have hmod : tc % size = tc - k * size := by
    have e : tc = (tc - k * size) + k * size := by omega
    conv => lhs; rw [e]
    rw [Nat.add_mul_mod_self_right, Nat.mod_eq_of_lt (by omega)]
  refine List.ext_getElem (by simp [row]) (fun i h3 h4 => ?_)
  simp only [row, List.getElem_map, List.getElem_range, List.getElem_set, lastSaid_snoc, h, hmod, true_and]
  by_cases hi : tc = k * size + i
  · rw [if_pos hi, if_pos (by omega)]
  · rw [if_neg hi, if_neg (by omega)]

theorem rows_succ (l : List (Nat × Msg)) (n : Nat) : rows size l (n + 1) = rows size l n ++ [row size l n] := by
  simp [rows, List.range_succ]

theorem rows_lt {l : List (Nat × Msg)} {k n : Nat} {m : Msg} (h : n ≤ k) : rows size (l ++ [(k, m)]) n = rows size l n := by
  unfold rows
  refine List.map_congr_left (fun j hj => row_other (.inr ?_))
  have := List.mem_range.1 hj
  omega

theorem rows_silent {l : List (Nat × Msg)} {k n : Nat} {m : Msg} (h : says m = none) :
    rows size (l ++ [(k, m)]) n = rows size l n := by
  unfold rows
  exact List.map_congr_left (fun j hj => row_other (.inl h))

/-! ## What a message does -/

/-- The message is a bad score. -/
def Msg.bad : Msg → Bool
  | .score _ s _ => decide (s ≠ .num 1)
  | _ => false

/-- The number of batches begun. -/
def tasks (l : List (Nat × Msg)) : Nat := l.countP (fun p => decide (p.2 = .task))

def isGenerated (m : Msg) : Bool := match m with | .generation _ (.done _) => true | _ => false
def isSolved (m : Msg) : Bool := match m with | .evaluation _ (.done _) => true | _ => false

/-- The effect of a message on the batches of the UI. -/
theorem set_some {u u' : Ui} {tc : Nat} {s : TcStatus} (h : u.set size tc s = some u') :
    size ≠ 0 ∧ ∃ last, u.batches.getLast? = some last ∧
      u' = { u with batches := u.batches.dropLast ++ [last.set (tc % size) s] } := by
  unfold Ui.set at h
  split at h
  · cases h
  · next h0 =>
    split at h
    · cases h
    · next last hl => cases h; exact ⟨h0, last, hl, rfl⟩

theorem success_iff {o : Outcome} : o.success = true ↔ o.status = .success := by
  unfold Outcome.success; exact beq_iff_eq

/-- What happens to the batches. -/
def Batches (size : Nat) (m : Msg) (b b' : List (List TcStatus)) : Prop :=
  if m = .task then b' = b ++ [List.replicate size .pending]
  else match says m with
    | none => b' = b
    | some (tc, s) => ∃ last, b.getLast? = some last ∧ b' = b.dropLast ++ [last.set (tc % size) s]

theorem apply_batches {u u' : Ui} {sh sh' : Shared} {m : Msg} (h : apply size u sh m = some (u', sh')) :
    Batches size m u.batches u'.batches ∧
      u'.inputsGenerated = u.inputsGenerated + (if isGenerated m then 1 else 0) ∧
      u'.inputsSolved = u.inputsSolved + (if isSolved m then 1 else 0) := by
  have hset : ∀ {u₁ u' : Ui} {tc : Nat} {s : TcStatus}, u₁.set size tc s = some u' →
      (∃ last, u₁.batches.getLast? = some last ∧ u'.batches = u₁.batches.dropLast ++ [last.set (tc % size) s]) ∧
      u'.inputsGenerated = u₁.inputsGenerated ∧ u'.inputsSolved = u₁.inputsSolved := by
    intro u₁ u' tc s h
    obtain ⟨-, last, h1, rfl⟩ := set_some h
    exact ⟨⟨last, h1, rfl⟩, rfl, rfl⟩
  cases m with
  | task => cases h; simp [Batches, isGenerated, isSolved]
  | other => cases h; simp [Batches, says, isGenerated, isSolved]
  | generation tc p =>
    unfold Batches
    rw [if_neg (by simp)]
    cases p with
    | pending => cases h; simp [says, isGenerated, isSolved]
    | skipped => cases h; simp [says, isGenerated, isSolved]
    | started =>
      simp only [apply, produce, Option.map_eq_some_iff] at h
      obtain ⟨u₁, h1, h2⟩ := h
      cases h2
      obtain ⟨h1, h2, h3⟩ := hset h1
      simp only [says, isGenerated, isSolved]
      exact ⟨h1, by simp [h2], by simp [h3]⟩
    | done o =>
      simp only [apply, produce] at h
      split at h
      · next hs =>
        rw [Option.map_eq_some_iff] at h
        obtain ⟨u₁, h1, h2⟩ := h
        cases h2
        obtain ⟨h1, h2, h3⟩ := hset h1
        simp only [says, if_pos (success_iff.1 hs), isGenerated, isSolved]
        exact ⟨h1, by simp [h2], by simp [h3]⟩
      · next hs =>
        split at h
        · next u₁ sh₁ h1 h2 =>
          cases h
          obtain ⟨h1, h2, h3⟩ := hset h1
          simp only [says, if_neg (fun e => hs (success_iff.2 e)), isGenerated, isSolved]
          exact ⟨h1, by simp [h2], by simp [h3]⟩
        · cases h
  | validation tc p =>
    unfold Batches
    rw [if_neg (by simp)]
    cases p with
    | pending => cases h; simp [says, isGenerated, isSolved]
    | skipped => cases h; simp [says, isGenerated, isSolved]
    | started =>
      simp only [apply, produce, Option.map_eq_some_iff] at h
      obtain ⟨u₁, h1, h2⟩ := h
      cases h2
      obtain ⟨h1, h2, h3⟩ := hset h1
      simp only [says, isGenerated, isSolved]
      exact ⟨h1, by simp [h2], by simp [h3]⟩
    | done o =>
      simp only [apply, produce] at h
      split at h
      · next hs =>
        rw [Option.map_eq_some_iff] at h
        obtain ⟨u₁, h1, h2⟩ := h
        cases h2
        obtain ⟨h1, h2, h3⟩ := hset h1
        simp only [says, if_pos (success_iff.1 hs), isGenerated, isSolved]
        exact ⟨h1, by simp [h2], by simp [h3]⟩
      · next hs =>
        split at h
        · next u₁ sh₁ h1 h2 =>
          cases h
          obtain ⟨h1, h2, h3⟩ := hset h1
          simp only [says, if_neg (fun e => hs (success_iff.2 e)), isGenerated, isSolved]
          exact ⟨h1, by simp [h2], by simp [h3]⟩
        · cases h
  | evaluation tc p =>
    unfold Batches
    rw [if_neg (by simp)]
    cases p with
    | pending => cases h; simp [says, isGenerated, isSolved]
    | skipped => cases h; simp [says, isGenerated, isSolved]
    | started =>
      simp only [apply, Option.map_eq_some_iff] at h
      obtain ⟨u₁, h1, h2⟩ := h
      cases h2
      obtain ⟨h1, h2, h3⟩ := hset h1
      simp only [says, isGenerated, isSolved]
      exact ⟨h1, by simp [h2], by simp [h3]⟩
    | done o =>
      simp only [apply, Option.map_eq_some_iff] at h
      obtain ⟨u₁, h1, h2⟩ := h
      cases h2
      split at h1
      · next hs =>
        obtain ⟨h1, h2, h3⟩ := hset h1
        simp only [says, if_pos (success_iff.1 hs), isGenerated, isSolved]
        exact ⟨h1, by simp [h2], by simp [h3]⟩
      · next hs =>
        cases h1
        simp only [says, if_neg (fun e => hs (success_iff.2 e)), isGenerated, isSolved]
        simp
  | checker tc p =>
    unfold Batches
    rw [if_neg (by simp)]
    cases p with
    | started =>
      simp only [apply, Option.map_eq_some_iff] at h
      obtain ⟨u₁, h1, h2⟩ := h
      cases h2
      obtain ⟨h1, h2, h3⟩ := hset h1
      simp only [says, isGenerated, isSolved]
      exact ⟨h1, by simp [h2], by simp [h3]⟩
    | _ => cases h; simp [says, isGenerated, isSolved]
  | score tc s msg =>
    unfold Batches
    rw [if_neg (by simp)]
    simp only [apply] at h
    split at h
    · next hs =>
      rw [Option.map_eq_some_iff] at h
      obtain ⟨u₁, h1, h2⟩ := h
      cases h2
      obtain ⟨h1, h2, h3⟩ := hset h1
      simp only [says, if_pos hs, isGenerated, isSolved]
      exact ⟨h1, by simp [h2], by simp [h3]⟩
    · next hs =>
      split at h
      · next u₁ b h1 h2 =>
        cases h
        obtain ⟨h1, h2, h3⟩ := hset h1
        simp only [says, if_neg hs, isGenerated, isSolved]
        exact ⟨h1, by simp [h2], by simp [h3]⟩
      · cases h

/-- What happens to the case that is reported. -/
def FailingAfter (sh sh' : Shared) : Msg → Prop
  | .score tc s msg => if s = .num 1 then sh'.failing = sh.failing
      else ∃ b, sh.lastBatch = some b ∧ sh'.failing = (b.get? tc).map (·, msg)
  | _ => sh'.failing = sh.failing

/-- What happens to the shared state. -/
theorem apply_shared {u u' : Ui} {sh sh' : Shared} {m : Msg} (h : apply size u sh m = some (u', sh')) :
    sh'.lastBatch = sh.lastBatch ∧ (sh'.shouldStop = (sh.shouldStop || m.bad)) ∧
    FailingAfter sh sh' m ∧
    (sh'.errored = sh.errored ∨ ∃ b tc c o what, sh.lastBatch = some b ∧ b.get? tc = some c ∧ o.status ≠ .success ∧
      sh'.errored = some (c, what, o) ∧ (what = "Generator failed" ∧ m = .generation tc (.done o) ∨
        what = "Validator failed" ∧ m = .validation tc (.done o))) := by
  have herr : ∀ {sh sh' : Shared} {tc : Nat} {what : String} {o : Outcome}, sh.setError tc what o = some sh' →
      ∃ b c, sh.lastBatch = some b ∧ b.get? tc = some c ∧ sh' = { sh with errored := some (c, what, o) } := by
    intro sh sh' tc what o h
    unfold Shared.setError at h
    split at h
    · cases h
    · next c hc =>
      cases h
      rw [Option.bind_eq_some_iff] at hc
      obtain ⟨b, h1, h2⟩ := hc
      exact ⟨b, c, h1, h2, rfl⟩
  cases m with
  | task => cases h; simp [Msg.bad, FailingAfter]
  | other => cases h; simp [Msg.bad, FailingAfter]
  | generation tc p =>
    cases p with
    | pending => cases h; simp [Msg.bad, FailingAfter]
    | skipped => cases h; simp [Msg.bad, FailingAfter]
    | started =>
      simp only [apply, produce, Option.map_eq_some_iff] at h
      obtain ⟨u₁, h1, h2⟩ := h
      cases h2; simp [Msg.bad, FailingAfter]
    | done o =>
      simp only [apply, produce] at h
      split at h
      · rw [Option.map_eq_some_iff] at h
        obtain ⟨u₁, h1, h2⟩ := h
        cases h2; simp [Msg.bad, FailingAfter]
      · next hs =>
        split at h
        · next u₁ sh₁ h1 h2 =>
          cases h
          obtain ⟨b, c, h3, h4, rfl⟩ := herr h2
          exact ⟨rfl, by simp [Msg.bad, FailingAfter], rfl, .inr ⟨b, tc, c, o, _, h3, h4, fun e => hs (success_iff.2 e), rfl,
            .inl ⟨rfl, rfl⟩⟩⟩
        · cases h
  | validation tc p =>
    cases p with
    | pending => cases h; simp [Msg.bad, FailingAfter]
    | skipped => cases h; simp [Msg.bad, FailingAfter]
    | started =>
      simp only [apply, produce, Option.map_eq_some_iff] at h
      obtain ⟨u₁, h1, h2⟩ := h
      cases h2; simp [Msg.bad, FailingAfter]
    | done o =>
      simp only [apply, produce] at h
      split at h
      · rw [Option.map_eq_some_iff] at h
        obtain ⟨u₁, h1, h2⟩ := h
        cases h2; simp [Msg.bad, FailingAfter]
      · next hs =>
        split at h
        · next u₁ sh₁ h1 h2 =>
          cases h
          obtain ⟨b, c, h3, h4, rfl⟩ := herr h2
          exact ⟨rfl, by simp [Msg.bad, FailingAfter], rfl, .inr ⟨b, tc, c, o, _, h3, h4, fun e => hs (success_iff.2 e), rfl,
            .inr ⟨rfl, rfl⟩⟩⟩
        · cases h
  | evaluation tc p =>
    cases p with
    | pending => cases h; simp [Msg.bad, FailingAfter]
    | skipped => cases h; simp [Msg.bad, FailingAfter]
    | started =>
      simp only [apply, Option.map_eq_some_iff] at h
      obtain ⟨u₁, h1, h2⟩ := h
      cases h2; simp [Msg.bad, FailingAfter]
    | done o =>
      simp only [apply, Option.map_eq_some_iff] at h
      obtain ⟨u₁, h1, h2⟩ := h
      cases h2; simp [Msg.bad, FailingAfter]
  | checker tc p =>
    cases p with
    | started =>
      simp only [apply, Option.map_eq_some_iff] at h
      obtain ⟨u₁, h1, h2⟩ := h
      cases h2; simp [Msg.bad, FailingAfter]
    | _ => cases h; simp [Msg.bad, FailingAfter]
  | score tc s msg =>
    simp only [apply] at h
    split at h
    · next hs =>
      rw [Option.map_eq_some_iff] at h
      obtain ⟨u₁, h1, h2⟩ := h
      cases h2; simp [Msg.bad, FailingAfter, hs]
    · next hs =>
      split at h
      · next u₁ b h1 h2 =>
        cases h
        refine ⟨rfl, by simp [Msg.bad, hs], ?_, .inl rfl⟩
        simp only [FailingAfter, hs, if_false]
        exact ⟨b, h2, rfl⟩
      · cases h

/-- When a message is handled without panics. -/
theorem apply_ok {u : Ui} {sh : Shared} {m : Msg} (hm : ∀ tc, m.testcase = some tc → size ≠ 0 ∧ u.batches ≠ [] ∧
    ∃ b c, sh.lastBatch = some b ∧ b.get? tc = some c) : apply size u sh m ≠ none := by
  have hset : ∀ {u : Ui} {tc : Nat} {s : TcStatus}, size ≠ 0 → u.batches ≠ [] → ∃ u', u.set size tc s = some u' := by
    intro u tc s h1 h2
    unfold Ui.set
    rw [if_neg h1]
    cases hl : u.batches.getLast? with
    | none => exact absurd (List.getLast?_eq_none_iff.1 hl) h2
    | some l => exact ⟨_, rfl⟩
  have hprod : ∀ {u : Ui} {tc : Nat} {r v : TcStatus} {w : String} {p : Phase}, size ≠ 0 → u.batches ≠ [] →
      (∃ b c, sh.lastBatch = some b ∧ b.get? tc = some c) → produce size u sh tc r v w p ≠ none := by
    intro u tc r v w p h1 h2 ⟨b, c, h3, h4⟩
    cases p with
    | started => obtain ⟨u', h⟩ := hset (u := u) (tc := tc) (s := r) h1 h2; simp [produce, h]
    | done o =>
      obtain ⟨u', h⟩ := hset (u := u) (tc := tc) (s := v) h1 h2
      obtain ⟨u₂, h'⟩ := hset (u := u) (tc := tc) (s := .error) h1 h2
      simp only [produce]
      split
      · simp [h]
      · simp [h', Shared.setError, h3, h4]
    | _ => simp [produce]
  cases m with
  | task => simp [apply]
  | other => simp [apply]
  | generation tc p =>
    obtain ⟨h1, h2, h3⟩ := hm tc rfl
    simp only [apply]
    refine hprod h1 ?_ h3
    cases p <;> exact h2
  | validation tc p =>
    obtain ⟨h1, h2, h3⟩ := hm tc rfl
    exact hprod h1 h2 h3
  | evaluation tc p =>
    obtain ⟨h1, h2, h3⟩ := hm tc rfl
    cases p with
    | started => obtain ⟨u', h⟩ := hset (u := u) (tc := tc) (s := .solving) h1 h2; simp [apply, h]
    | done o =>
      obtain ⟨u', h⟩ := hset (u := u) (tc := tc) (s := .solved) h1 h2
      simp only [apply]; split <;> simp [h]
    | _ => simp [apply]
  | checker tc p =>
    obtain ⟨h1, h2, h3⟩ := hm tc rfl
    cases p with
    | started => obtain ⟨u', h⟩ := hset (u := u) (tc := tc) (s := .checking) h1 h2; simp [apply, h]
    | _ => simp [apply]
  | score tc s msg =>
    obtain ⟨h1, h2, b, c, h3, h4⟩ := hm tc rfl
    obtain ⟨u', h⟩ := hset (u := u) (tc := tc) (s := .success) h1 h2
    obtain ⟨u₂, h'⟩ := hset (u := u) (tc := tc) (s := .failed msg) h1 h2
    simp only [apply]
    split
    · simp [h]
    · simp [h', h3]

/-! ## Invariants -/

variable {s : Sys}

/-- The number of batches begun. -/
def Main.begun : Main → Nat
  | .between k => k
  | .building k => k
  | .running k => k + 1
  | .ended k => k + 1

/-- The batch in the shared state. -/
def Main.current : Main → Option Nat
  | .between 0 => none
  | .between (k + 1) => some k
  | .building k => some k
  | .running k => some k
  | .ended k => some k

structure Inv (args : List String) (size : Nat) (seed : Nat → Nat) (s : Sys) : Prop where
  split : s.sent = s.handled ++ s.queue
  owner : ∀ p ∈ s.sent, ∀ tc, p.2.testcase = some tc → tc ∈ (batchesOf args size seed p.1).keys
  order : ∀ a k m b, s.sent = a ++ (k, m) :: b → tasks a = if m = .task then k else k + 1
  total : tasks s.sent = s.main.begun
  batch : s.shared.lastBatch = s.main.current.map (batchesOf args size seed)
  rows : s.ui.batches = rows size s.handled (tasks s.handled)
  failing : ∀ c w, s.shared.failing = some (c, w) → ∃ k tc, IsBad s.handled k tc w ∧
    (batchesOf args size seed k).get? tc = some c
  errored : ∀ c w o, s.shared.errored = some (c, w, o) → ∃ k tc, IsError s.handled k tc w o ∧
    (batchesOf args size seed k).get? tc = some c
  generated : s.ui.inputsGenerated = s.handled.countP (fun p => isGenerated p.2)
  solved : s.ui.inputsSolved = s.handled.countP (fun p => isSolved p.2)

theorem tasks_append (a b : List (Nat × Msg)) : tasks (a ++ b) = tasks a + tasks b := by
  simp [tasks, List.countP_append]

theorem isBad_mono {l l' : List (Nat × Msg)} (h : ∀ x ∈ l, x ∈ l') {k tc : Nat} {w : String} (hb : IsBad l k tc w) :
    IsBad l' k tc w := by
  obtain ⟨s, h1, h2⟩ := hb
  exact ⟨s, h1, h _ h2⟩

theorem isError_mono {l l' : List (Nat × Msg)} (h : ∀ x ∈ l, x ∈ l') {k tc : Nat} {w : String} {o : Outcome}
    (hb : IsError l k tc w o) : IsError l' k tc w o := by
  obtain ⟨h1, h2⟩ := hb
  exact ⟨h1, h2.imp (fun x => ⟨x.1, h _ x.2⟩) (fun x => ⟨x.1, h _ x.2⟩)⟩

theorem order_snoc {l : List (Nat × Msg)} {k : Nat} {m : Msg}
    (h : ∀ a k m b, l = a ++ (k, m) :: b → tasks a = if m = .task then k else k + 1)
    (hn : tasks l = if m = .task then k else k + 1) :
    ∀ a k' m' b, l ++ [(k, m)] = a ++ (k', m') :: b → tasks a = if m' = .task then k' else k' + 1 := by
  intro a k' m' b e
  rcases List.eq_nil_or_concat b with rfl | ⟨b', x, rfl⟩
  · have := List.append_inj' e rfl
    obtain ⟨rfl, h2⟩ := this
    cases h2
    exact hn
  · rw [List.concat_eq_append, show a ++ (k', m') :: (b' ++ [x]) = (a ++ (k', m') :: b') ++ [x] by simp] at e
    obtain ⟨rfl, -⟩ := List.append_inj' e rfl
    exact h a k' m' b' rfl

theorem handle_inv {p : Nat × Msg} {q : List (Nat × Msg)} {u : Ui} {sh : Shared} (hi : Inv args size seed s)
    (hq : s.queue = p :: q) (ha : apply size s.ui s.shared p.2 = some (u, sh)) :
    Inv args size seed { s with
      ui := u
      shared := sh
      queue := q
      handled := s.handled ++ [p] } := by
  obtain ⟨k, m⟩ := p
  have hmem : (k, m) ∈ s.sent := by rw [hi.split, hq]; simp
  have hord := hi.order s.handled k m q (by rw [hi.split, hq])
  obtain ⟨b1, b2, b3⟩ := apply_batches ha
  obtain ⟨s1, -, s3, s4⟩ := apply_shared ha
  have hsub : ∀ x ∈ s.handled, x ∈ s.handled ++ [(k, m)] := fun x hx => by simp [hx]
  have hlook : ∀ b tc c, s.shared.lastBatch = some b → b.get? tc = some c → m.testcase = some tc →
      (batchesOf args size seed k).get? tc = some c := by
    intro b tc c h1 h2 h3
    rw [hi.batch, Option.map_eq_some_iff] at h1
    obtain ⟨j, -, rfl⟩ := h1
    have h5 : tc ∈ (batchesOf args size seed k).keys := hi.owner _ hmem tc h3
    rw [batch_unique h5 (AMap.mem_keys_iff.2 ⟨c, h2⟩)]
    exact h2
  refine ⟨by simp [hi.split, hq], hi.owner, hi.order, hi.total, by rw [s1]; exact hi.batch, ?_, ?_, ?_, ?_, ?_⟩
  · show u.batches = rows size (s.handled ++ [(k, m)]) (tasks (s.handled ++ [(k, m)]))
    unfold Batches at b1
    rw [hi.rows, hord] at b1
    rw [tasks_append, hord]
    by_cases ht : m = .task
    · subst ht
      simp only [if_true] at b1 ⊢
      rw [show tasks [(k, Msg.task)] = 1 from rfl, rows_succ, rows_lt (Nat.le_refl k), b1]
      congr 2
      rw [row_other (.inl rfl)]
      unfold row
      refine List.ext_getElem (by simp) (fun i h1 h2 => ?_)
      simp only [List.getElem_replicate, List.getElem_map, List.getElem_range]
      -- nothing was said of this batch before it began
      unfold lastSaid
      suffices h : s.handled.filterMap (fun p => if p.1 = k then says p.2 else none) = [] by rw [h]; rfl
      rw [List.filterMap_eq_nil_iff]
      intro x hx
      split
      · next hk =>
        exfalso
        obtain ⟨a, b, hab⟩ := List.append_of_mem hx
        obtain ⟨k', m'⟩ := x
        have h3 := hi.order a k' m' (b ++ (k, .task) :: q) (by rw [hi.split, hq, hab]; simp)
        simp only at hk
        subst hk
        have h4 : tasks s.handled = tasks a + tasks ((k', m') :: b) := by rw [hab, tasks_append]
        rw [if_pos rfl] at hord
        by_cases hm' : m' = .task
        · subst hm'
          have : 1 ≤ tasks ((k', Msg.task) :: b) := by simp [tasks]
          rw [if_pos rfl] at h3
          omega
        · rw [if_neg hm'] at h3
          omega
      · rfl
    · rw [if_neg ht] at b1 ⊢
      rw [show tasks [(k, m)] = 0 by simp [tasks, ht], Nat.add_zero]
      split at b1
      · next hs => rw [b1, if_neg ht, rows_silent hs]
      · next tc st hs =>
        rw [if_neg ht] at b1
        obtain ⟨last, h1, h2⟩ := b1
        rw [rows_succ] at h1 h2
        simp only [List.getLast?_append, List.getLast?_singleton, Option.some_or, Option.some.injEq] at h1
        subst h1
        rw [h2, List.dropLast_concat, rows_succ, rows_lt (Nat.le_refl k)]
        have htc : m.testcase = some tc := by
          cases m with
          | evaluation t p =>
            cases p with
            | done o => simp only [says] at hs; split at hs <;> cases hs; rfl
            | _ => cases hs <;> rfl
          | generation t p => cases p <;> cases hs <;> rfl
          | validation t p => cases p <;> cases hs <;> rfl
          | checker t p => cases p <;> cases hs <;> rfl
          | score t s w => cases hs; rfl
          | _ => cases hs
        have h6 := mem_batch.1 (hi.owner _ hmem tc htc)
        rw [row_set hs h6.1 h6.2]
  · intro c w hf
    show ∃ k' tc, IsBad (s.handled ++ [(k, m)]) k' tc w ∧ _
    have old : sh.failing = s.shared.failing → ∃ k' tc, IsBad (s.handled ++ [(k, m)]) k' tc w ∧
        (batchesOf args size seed k').get? tc = some c := by
      intro e
      rw [e] at hf
      obtain ⟨k', tc, h1, h2⟩ := hi.failing c w hf
      exact ⟨k', tc, isBad_mono hsub h1, h2⟩
    cases m with
    | score tc sc msg =>
      simp only [FailingAfter] at s3
      split at s3
      · exact old s3
      · next hs =>
        obtain ⟨b, h1, h2⟩ := s3
        rw [h2, Option.map_eq_some_iff] at hf
        obtain ⟨c', h3, h4⟩ := hf
        cases h4
        exact ⟨k, tc, ⟨sc, hs, by simp⟩, hlook b tc c h1 h3 rfl⟩
    | _ => exact old s3
  · intro c w o hf
    show ∃ k' tc, IsError (s.handled ++ [(k, m)]) k' tc w o ∧ _
    rcases s4 with s4 | ⟨b, tc, c', o', what, h1, h2, h3, h4, h5⟩
    · rw [s4] at hf
      obtain ⟨k', tc, h1, h2⟩ := hi.errored c w o hf
      exact ⟨k', tc, isError_mono hsub h1, h2⟩
    · rw [h4] at hf
      cases hf
      have htc : m.testcase = some tc := by rcases h5 with ⟨-, rfl⟩ | ⟨-, rfl⟩ <;> rfl
      refine ⟨k, tc, ⟨h3, ?_⟩, hlook b tc c h1 h2 htc⟩
      rcases h5 with ⟨h5, rfl⟩ | ⟨h5, rfl⟩
      · exact .inl ⟨h5, by simp⟩
      · exact .inr ⟨h5, by simp⟩
  · show u.inputsGenerated = (s.handled ++ [(k, m)]).countP _
    rw [b2, hi.generated, List.countP_append]; simp [List.countP_cons]
  · show u.inputsSolved = (s.handled ++ [(k, m)]).countP _
    rw [b3, hi.solved, List.countP_append]; simp [List.countP_cons]

theorem inv (h : Run prompt size (batchesOf args size seed) s) : Inv args size seed s := by
  induction h with
  | init =>
    refine ⟨rfl, (fun p hp => nomatch hp), fun a k m b e => ?_, rfl, rfl, rfl, (fun _ _ e => nomatch e), (fun _ _ _ e => nomatch e), rfl, rfl⟩
    have := congrArg List.length e
    simp at this
  | @step s t hr hst ih =>
    cases hst with
    | next k hm hp =>
      exact ⟨ih.split, ih.owner, ih.order, by rw [ih.total, hm]; rfl, rfl, ih.rows, ih.failing, ih.errored, ih.generated,
        ih.solved⟩
    | build k hm =>
      have hn : tasks s.sent = k := by rw [ih.total, hm]; rfl
      refine ⟨by simp [ih.split], ?_, order_snoc ih.order (by rw [if_pos rfl, hn]), ?_, by rw [ih.batch, hm]; rfl, ih.rows,
        ih.failing, ih.errored, ih.generated, ih.solved⟩
      · intro p hp tc htc
        rcases List.mem_append.1 hp with hp | hp
        · exact ih.owner p hp tc htc
        · rw [List.mem_singleton] at hp; subst hp; cases htc
      · show tasks (s.sent ++ [(k, .task)]) = k + 1
        rw [tasks_append, hn]; rfl
    | send k m hm hne ho =>
      have hn : tasks s.sent = k + 1 := by rw [ih.total, hm]; rfl
      refine ⟨by simp [ih.split], ?_, order_snoc ih.order (by rw [if_neg hne, hn]), ?_, ih.batch, ih.rows,
        ih.failing, ih.errored, ih.generated, ih.solved⟩
      · intro p hp tc htc
        rcases List.mem_append.1 hp with hp | hp
        · exact ih.owner p hp tc htc
        · rw [List.mem_singleton] at hp; subst hp; exact ho tc htc
      · show tasks (s.sent ++ [(k, m)]) = s.main.begun
        rw [tasks_append, ← ih.total]; simp [tasks, hne]
    | check k hm =>
      refine ⟨ih.split, ih.owner, ih.order, ?_, ?_, ih.rows, ih.failing, ih.errored, ih.generated, ih.solved⟩
      · show tasks s.sent = _
        rw [ih.total, hm]
        split <;> rfl
      · show s.shared.lastBatch = _
        rw [ih.batch, hm]
        split <;> rfl
    | handle p q u sh hp hq ha => exact handle_inv ih hq ha
    | panic p q hp hq ha =>
      exact ⟨ih.split, ih.owner, ih.order, ih.total, ih.batch, ih.rows, ih.failing, ih.errored, ih.generated, ih.solved⟩
    | interrupt =>
      exact ⟨ih.split, ih.owner, ih.order, ih.total, ih.batch, ih.rows, ih.failing, ih.errored, ih.generated, ih.solved⟩

/-! ## If the UI keeps up -/

structure Prompt (args : List String) (size : Nat) (seed : Nat → Nat) (s : Sys) : Prop where
  fresh : ∀ p ∈ s.queue, s.main.current = some p.1
  ok : s.panicked = false
  found : (∃ p ∈ s.handled, p.2.bad = true) → s.shared.failing.isSome = true ∧ s.shared.shouldStop = true
  stops : ∀ p ∈ s.sent, p.2.bad = true →
    s.main = .running p.1 ∨ s.main = .ended p.1 ∨ s.main = .between (p.1 + 1) ∨
    ((s.main = .building (p.1 + 1) ∨ s.main = .running (p.1 + 1) ∨ s.main = .ended (p.1 + 1)) ∧
      s.shared.shouldStop = true)

theorem bad_testcase {m : Msg} (h : m.bad = true) : ∃ tc s w, m = .score tc s w ∧ s ≠ .num 1 := by
  cases m with
  | score tc s w => exact ⟨tc, s, w, rfl, by simpa [Msg.bad] using h⟩
  | _ => cases h

theorem prompt_inv (h : Run true size (batchesOf args size seed) s) : Prompt args size seed s := by
  induction h with
  | init => exact ⟨(fun p hp => nomatch hp), rfl, (fun ⟨p, hp, _⟩ => nomatch hp), (fun p hp => nomatch hp)⟩
  | @step s t hr hst ih =>
    have hi := inv hr
    cases hst with
    | next k hm hp =>
      have hq := hp rfl
      refine ⟨(fun p hp => by have hp : p ∈ s.queue := hp; rw [hq] at hp; cases hp), ih.ok, ih.found, fun p hp hb => ?_⟩
      have := ih.stops p hp hb
      rw [hm] at this
      simp only [reduceCtorEq, Main.between.injEq, false_or, false_and, or_false] at this
      subst this
      refine .inr (.inr (.inr ⟨.inl rfl, ?_⟩))
      exact (ih.found ⟨p, by rw [hi.split, hq] at hp; simpa using hp, hb⟩).2
    | build k hm =>
      refine ⟨fun p hp => ?_, ih.ok, ih.found, fun p hp hb => ?_⟩
      · rcases List.mem_append.1 hp with hp | hp
        · have := ih.fresh p hp; rw [hm] at this; exact this
        · rw [List.mem_singleton] at hp; subst hp; rfl
      · rcases List.mem_append.1 hp with hp | hp
        · have := ih.stops p hp hb
          rw [hm] at this
          simp only [reduceCtorEq, Main.building.injEq, false_or, or_false] at this
          obtain ⟨rfl, h2⟩ := this
          exact .inr (.inr (.inr ⟨.inr (.inl rfl), h2⟩))
        · rw [List.mem_singleton] at hp; subst hp; cases hb
    | send k m hm hne ho =>
      refine ⟨fun p hp => ?_, ih.ok, ih.found, fun p hp hb => ?_⟩
      · rcases List.mem_append.1 hp with hp | hp
        · exact ih.fresh p hp
        · rw [List.mem_singleton] at hp; subst hp
          show s.main.current = _
          rw [hm]; rfl
      · rcases List.mem_append.1 hp with hp | hp
        · exact ih.stops p hp hb
        · rw [List.mem_singleton] at hp; subst hp; exact .inl hm
    | check k hm =>
      refine ⟨fun p hp => ?_, ih.ok, ih.found, fun p hp hb => ?_⟩
      · have := ih.fresh p hp
        rw [hm] at this
        show (if s.shared.shouldStop = true then Main.ended k else Main.between (k + 1)).current = _
        split <;> exact this
      · have := ih.stops p hp hb
        rw [hm] at this
        simp only [reduceCtorEq, Main.running.injEq, false_or, or_false] at this
        show (if s.shared.shouldStop = true then Main.ended k else Main.between (k + 1)) = _ ∨
          (if s.shared.shouldStop = true then Main.ended k else Main.between (k + 1)) = _ ∨
          (if s.shared.shouldStop = true then Main.ended k else Main.between (k + 1)) = _ ∨
          ((if s.shared.shouldStop = true then Main.ended k else Main.between (k + 1)) = _ ∨
          (if s.shared.shouldStop = true then Main.ended k else Main.between (k + 1)) = _ ∨
          (if s.shared.shouldStop = true then Main.ended k else Main.between (k + 1)) = _) ∧ _
        rcases this with rfl | ⟨rfl, h2⟩
        · split
          · exact .inr (.inl rfl)
          · exact .inr (.inr (.inl rfl))
        · rw [if_pos h2]
          exact .inr (.inr (.inr ⟨.inr (.inr rfl), h2⟩))
    | handle p q u sh hp hq ha =>
      obtain ⟨s1, s2, s3, -⟩ := apply_shared ha
      have hmem : p ∈ s.sent := by rw [hi.split, hq]; simp
      have hcur := ih.fresh p (by rw [hq]; simp)
      refine ⟨fun p' hp' => ih.fresh p' (by rw [hq]; exact List.mem_cons.2 (.inr hp')), ih.ok, ?_, fun p' hp' hb => ?_⟩
      · rintro ⟨p', hp', hb⟩
        show sh.failing.isSome = true ∧ sh.shouldStop = true
        cases hbad : p.2.bad with
        | true =>
          obtain ⟨tc, sc, w, h1, h2⟩ := bad_testcase hbad
          rw [h1] at s3
          simp only [FailingAfter, h2, if_false] at s3
          obtain ⟨b, h3, h4⟩ := s3
          rw [hi.batch, hcur] at h3
          cases h3
          rw [h4, batch_has (hi.owner p hmem tc (by rw [h1]; rfl)), s2, hbad]
          simp
        | false =>
          rcases List.mem_append.1 hp' with hp' | hp'
          · obtain ⟨h1, h2⟩ := ih.found ⟨p', hp', hb⟩
            rw [s2, h2]
            refine ⟨?_, rfl⟩
            suffices hsf : sh.failing = s.shared.failing by rw [hsf]; exact h1
            cases hm : p.2 with
            | score tc sc w =>
              rw [hm] at s3 hbad
              simp only [Msg.bad, decide_eq_false_iff_not, Classical.not_not] at hbad
              simpa [FailingAfter, hbad] using s3
            | _ => rw [hm] at s3; exact s3
          · rw [List.mem_singleton] at hp'; subst hp'; rw [hbad] at hb; cases hb
      · rcases ih.stops p' hp' hb with h | h | h | ⟨h1, h2⟩
        · exact .inl h
        · exact .inr (.inl h)
        · exact .inr (.inr (.inl h))
        · refine .inr (.inr (.inr ⟨h1, ?_⟩))
          show sh.shouldStop = true
          rw [s2, h2]; rfl
    | panic p q hp hq ha =>
      exfalso
      have hmem : p ∈ s.sent := by rw [hi.split, hq]; simp
      refine apply_ok (fun tc htc => ?_) ha
      have hb := hi.owner p hmem tc htc
      have hcur := ih.fresh p (by rw [hq]; simp)
      refine ⟨?_, ?_, ?_⟩
      · intro e; subst e
        have := mem_batch.1 hb
        omega
      · have hord := hi.order s.handled p.1 p.2 q (by rw [hi.split, hq])
        rw [if_neg (by intro e; rw [e] at htc; cases htc)] at hord
        rw [hi.rows, hord, rows_succ]
        simp
      · exact ⟨_, _, by rw [hi.batch, hcur]; rfl, batch_has hb⟩
    | interrupt =>
      refine ⟨ih.fresh, ih.ok, fun hx => ⟨(ih.found hx).1, rfl⟩, fun p hp hb => ?_⟩
      rcases ih.stops p hp hb with h | h | h | ⟨h1, h2⟩
      · exact .inl h
      · exact .inr (.inl h)
      · exact .inr (.inr (.inl h))
      · exact .inr (.inr (.inr ⟨h1, rfl⟩))

end TM.BadCase
