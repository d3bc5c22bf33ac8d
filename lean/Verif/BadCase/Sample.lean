import Verif.BadCase.Props
/-!
# Concrete searches: the hypotheses can be met, and what the races do
-/
namespace TM.BadCase.Sample
open TM TM.Build TM.BadCase TM.BadCase.Spec

def args : List String := ["10", "{}"]
def seed (tc : Nat) : Nat := 100 + 7 * tc
def batches : Nat → Batch := batchesOf args 2 seed

/-- `batches` are distinct and have the seed in place of the placeholder. -/
example : (batches 1).get? 3 = some ⟨["10", "121"], 121⟩ ∧ (batches 1).keys = [2, 3] := by decide +kernel

def wrong : Msg := .score 3 (.num 0) "Output is not correct"

/-- Batch 0 is fine, batch 1 has a bad case; the UI keeps up. -/
def found : Sys :=
  { main := .ended 1
    ui := { batches := [[.pending, .success], [.pending, .failed "Output is not correct"]] }
    shared :=
      { lastBatch := some (batches 1)
        shouldStop := true
        failing := some (⟨["10", "121"], 121⟩, "Output is not correct") }
    queue := []
    sent := [(0, .task), (0, .score 1 (.num 1) "ok"), (1, .task), (1, wrong)]
    handled := [(0, .task), (0, .score 1 (.num 1) "ok"), (1, .task), (1, wrong)] }

theorem found_run (b : Bool) : Run b 2 batches found := by
  have h0 : Run b 2 batches {} := .init
  have h1 := h0.step (.next _ 0 rfl (fun _ => rfl))
  have h2 := h1.step (.build _ 0 rfl)
  have h3 := h2.step (.send _ 0 (.score 1 (.num 1) "ok") rfl (by simp) (by rintro tc ⟨⟩; decide +kernel))
  have h4 := h3.step (.handle _ _ _ _ _ rfl rfl rfl)
  have h5 := h4.step (.handle _ _ _ _ _ rfl rfl rfl)
  have h6 := h5.step (.check _ 0 rfl)
  have h7 := h6.step (.next _ 1 rfl (fun _ => rfl))
  have h8 := h7.step (.build _ 1 rfl)
  have h9 := h8.step (.send _ 1 wrong rfl (by simp [wrong]) (by rintro tc ⟨⟩; decide +kernel))
  have h10 := h9.step (.handle _ _ _ _ _ rfl rfl rfl)
  have h11 := h10.step (.handle _ _ _ _ _ rfl rfl rfl)
  exact h11.step (.check _ 1 rfl)

/-- The hypotheses of the theorems can be met, by a search that finds a bad case. -/
example : Run true 2 (batchesOf args 2 seed) found ∧ found.over ∧ IsBad found.sent 1 3 "Output is not correct" ∧
    found.shared.failing = some (⟨["10", "121"], 121⟩, "Output is not correct") :=
  ⟨found_run true, ⟨⟨1, rfl⟩, rfl, rfl⟩, ⟨.num 0, by simp, by simp [found, wrong]⟩, rfl⟩

/-- **C95** Not with any order of the threads: if the score of batch 0 is handled when batch 1 is already in the shared
state, the tool stops but says that no bad case was found. -/
theorem lost_by_race : ∃ s, Run false 2 (batchesOf args 2 seed) s ∧ s.over ∧
    IsBad s.sent 0 1 "Output is not correct" ∧ s.shared.shouldStop = true ∧ s.shared.failing = none := by
  have h0 : Run false 2 batches {} := .init
  have h1 := h0.step (.next _ 0 rfl (fun h => nomatch h))
  have h2 := h1.step (.build _ 0 rfl)
  have h3 := h2.step (.send _ 0 (.score 1 (.num 0) "Output is not correct") rfl (by simp)
    (by rintro tc ⟨⟩; decide +kernel))
  have h4 := h3.step (.handle _ _ _ _ _ rfl rfl rfl)
  have h5 := h4.step (.check _ 0 rfl)
  have h6 := h5.step (.next _ 1 rfl (fun h => nomatch h))
  have h7 := h6.step (.handle _ _ _ _ _ rfl rfl rfl)
  have h8 := h7.step (.build _ 1 rfl)
  have h9 := h8.step (.handle _ _ _ _ _ rfl rfl rfl)
  have h10 := h9.step (.check _ 1 rfl)
  refine ⟨_, h10, ⟨⟨1, rfl⟩, rfl, rfl⟩, ⟨.num 0, by simp, by simp⟩, rfl, ?_⟩
  decide +kernel

def crashed : Outcome := { status := .returnCode 1 }

/-- ... and if it is a failure of the generator that comes late, the UI panics. -/
theorem panic_by_race : ∃ s, Run false 2 (batchesOf args 2 seed) s ∧ s.panicked = true := by
  have h0 : Run false 2 batches {} := .init
  have h1 := h0.step (.next _ 0 rfl (fun h => nomatch h))
  have h2 := h1.step (.build _ 0 rfl)
  have h3 := h2.step (.send _ 0 (.generation 1 (.done crashed)) rfl (by simp) (by rintro tc ⟨⟩; decide +kernel))
  have h4 := h3.step (.handle _ _ _ _ _ rfl rfl rfl)
  have h5 := h4.step (.check _ 0 rfl)
  have h6 := h5.step (.next _ 1 rfl (fun h => nomatch h))
  exact ⟨_, h6.step (.panic _ _ _ rfl rfl (by decide +kernel)), rfl⟩

end TM.BadCase.Sample
