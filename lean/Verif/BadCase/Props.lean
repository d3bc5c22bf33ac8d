import Verif.BadCase.Lemmas
/-!
# The search of a bad case (C95)
-/
namespace TM.BadCase
open TM TM.Build BadCase.Spec

variable {args : List String} {size : Nat} {seed : Nat → Nat} {prompt : Bool} {s : Sys}

/-! ## Any order of the threads -/

/-- **C95** The case that is reported is bad: the solution did not get the full score on it, with that message, and the
arguments and the seed shown are those it was generated with. -/
theorem reported_is_bad (h : Run prompt size (batchesOf args size seed) s) {c : Case} {message : String}
    (hf : s.shared.failing = some (c, message)) :
    ∃ k tc, IsBad s.sent k tc message ∧ (batchesOf args size seed k).get? tc = some c ∧ c.seed = seed tc ∧
      c.args = args.map (fun a => if a = "{}" then toString (seed tc) else a) := by
  have hi := inv h
  obtain ⟨k, tc, h1, h2⟩ := hi.failing c message hf
  have := batch_get h2
  exact ⟨k, tc, isBad_mono (fun x hx => by rw [hi.split]; simp [hx]) h1, h2, by rw [this], by rw [this]; rfl⟩

/-- **C95** The error that is reported is real: the generator, or the validator, failed on that testcase with that result. -/
theorem error_is_real (h : Run prompt size (batchesOf args size seed) s) {c : Case} {what : String} {o : Outcome}
    (hf : s.shared.errored = some (c, what, o)) :
    ∃ k tc, IsError s.sent k tc what o ∧ (batchesOf args size seed k).get? tc = some c := by
  have hi := inv h
  obtain ⟨k, tc, h1, h2⟩ := hi.errored c what o hf
  exact ⟨k, tc, isError_mono (fun x hx => by rw [hi.split]; simp [hx]) h1, h2⟩

/-- A failure of the generator or of the validator is recorded. -/
theorem apply_error {u u' : Ui} {sh sh' : Shared} {tc : Nat} {o : Outcome} {m : Msg} (hf : o.status ≠ .success)
    (hm : m = .generation tc (.done o) ∨ m = .validation tc (.done o)) (h : apply size u sh m = some (u', sh')) :
    sh'.errored.isSome = true := by
  have hs : ¬ o.success = true := fun e => hf (success_iff.1 e)
  have hprod : ∀ {u : Ui} {r v : TcStatus} {w : String}, produce size u sh tc r v w (.done o) = some (u', sh') →
      sh'.errored.isSome = true := by
    intro u r v w h
    simp only [produce, if_neg hs] at h
    split at h
    · next u₁ sh₁ h1 h2 =>
      cases h
      unfold Shared.setError at h2
      split at h2
      · cases h2
      · cases h2; rfl
    · cases h
  rcases hm with rfl | rfl
  · exact hprod (r := .generating) h
  · exact hprod (r := .validating) h

/-- **C95** ... and if one of them failed on some testcase, and the UI was told, an error is reported. -/
theorem errors_reported {batches : Nat → Batch} (h : Run prompt size batches s) {k tc : Nat} {what : String} {o : Outcome}
    (hb : IsError s.handled k tc what o) : s.shared.errored.isSome = true := by
  obtain ⟨hf, hb'⟩ := hb
  have hb : ∃ m, (k, m) ∈ s.handled ∧ (m = .generation tc (.done o) ∨ m = .validation tc (.done o)) := by
    rcases hb' with ⟨-, hb⟩ | ⟨-, hb⟩
    · exact ⟨_, hb, .inl rfl⟩
    · exact ⟨_, hb, .inr rfl⟩
  obtain ⟨m, hb, hm⟩ := hb
  clear hb'
  induction h with
  | init => cases hb
  | @step s t hr hst ih =>
    cases hst with
    | handle p q u sh hp hq ha =>
      show sh.errored.isSome = true
      rcases List.mem_append.1 hb with hb | hb
      · obtain ⟨-, -, -, s4⟩ := apply_shared ha
        rcases s4 with s4 | ⟨_, _, _, _, _, _, _, _, s4, _⟩
        · rw [s4]; exact ih hb
        · rw [s4]; rfl
      · rw [List.mem_singleton] at hb
        subst hb
        exact apply_error hf hm ha
    | _ => exact ih hb

/-- **C95** The UI shows of each testcase of each batch the last thing that was said of it by the messages handled so far. -/
theorem statuses_shown (h : Run prompt size (batchesOf args size seed) s) {k : Nat} {l : List TcStatus}
    (hb : s.ui.batches[k]? = some l) :
    l.length = size ∧ ∀ j, j < size → l[j]? = some (lastSaid s.handled k (k * size + j)) := by
  have hi := inv h
  rw [hi.rows] at hb
  simp only [rows, List.getElem?_map, List.getElem?_range, Option.map_eq_some_iff] at hb
  obtain ⟨k', h1, rfl⟩ := hb
  have : k' = k := by
    rw [List.getElem?_eq_some_iff] at h1
    obtain ⟨hlt, h1⟩ := h1
    simpa using h1.symm
  subst this
  refine ⟨by simp [row], fun j hj => ?_⟩
  simp [row, hj]

/-- ... there is one entry for each batch whose evaluation began, and the messages are handled in the order in which they
are sent. -/
theorem batches_shown (h : Run prompt size (batchesOf args size seed) s) :
    s.ui.batches.length = (s.handled.filter (fun p => decide (p.2 = .task))).length ∧ s.sent = s.handled ++ s.queue ∧
    s.ui.inputsGenerated = s.handled.countP (fun p => match p.2 with | .generation _ (.done _) => true | _ => false) ∧
    s.ui.inputsSolved = s.handled.countP (fun p => match p.2 with | .evaluation _ (.done _) => true | _ => false) := by
  have hi := inv h
  refine ⟨?_, hi.split, ?_, ?_⟩
  · rw [hi.rows]
    simp [rows, tasks, List.countP_eq_length_filter]
  · rw [hi.generated]; rfl
  · rw [hi.solved]; rfl

/-- **C95** The search stops for a reason: once a bad score is handled the tool is asked to stop, and it does not go on with
another batch after the evaluation of the current one. -/
theorem found_stops {batches : Nat → Batch} (h : Run prompt size batches s) {k tc : Nat} {w : String}
    (hb : IsBad s.handled k tc w) :
    s.shared.shouldStop = true ∧ ∀ t, Step prompt size batches s t → ∀ n, s.main = .running n →
      t.main = .running n ∨ t.main = .ended n := by
  have hstop : s.shared.shouldStop = true := by
    obtain ⟨sc, h1, h2⟩ := hb
    induction h with
    | init => cases h2
    | @step s t hr hst ih =>
      cases hst with
      | handle p q u sh hp hq ha =>
        obtain ⟨-, s2, -, -⟩ := apply_shared ha
        show sh.shouldStop = true
        rcases List.mem_append.1 h2 with h2 | h2
        · rw [s2, ih h2]; rfl
        · rw [List.mem_singleton] at h2
          subst h2
          rw [s2]; simp [Msg.bad, h1]
      | interrupt => rfl
      | _ => exact ih h2
  refine ⟨hstop, fun t hst n hn => ?_⟩
  cases hst with
  | next k hm => rw [hn] at hm; cases hm
  | build k hm => rw [hn] at hm; cases hm
  | check k hm =>
    rw [hn] at hm
    cases hm
    right
    show (if s.shared.shouldStop = true then Main.ended n else Main.between (n + 1)) = _
    rw [if_pos hstop]
  | _ => exact .inl hn

/-! ## If the UI keeps up -/

/-- **C95** If the UI handles all the messages of a batch before the next one begins, the tool does not panic; when it is
over a case is reported if, and only if, one was found; and at most one more batch is evaluated after it.  Missing: the code
does not wait for the UI, see `lost_by_race` and `panic_by_race`. -/
theorem found_is_reported_partial (h : Run true size (batchesOf args size seed) s) :
    s.panicked = false ∧
    (s.over → (s.shared.failing.isSome = true ↔ ∃ k tc w, IsBad s.sent k tc w)) ∧
    ∀ k tc w, IsBad s.sent k tc w → s.main.begun ≤ k + 2 := by
  have hi := inv h
  have hp := prompt_inv h
  refine ⟨hp.ok, fun ho => ⟨fun hf => ?_, ?_⟩, ?_⟩
  · obtain ⟨⟨c, w⟩, hc⟩ := Option.isSome_iff_exists.1 hf
    obtain ⟨k, tc, h1, -⟩ := reported_is_bad h hc
    exact ⟨k, tc, w, h1⟩
  · rintro ⟨k, tc, w, sc, h1, h2⟩
    refine (hp.found ⟨(k, .score tc sc w), ?_, ?_⟩).1
    · rw [hi.split, ho.2.1] at h2; simpa using h2
    · simp [Msg.bad, h1]
  · rintro k tc w ⟨sc, h1, h2⟩
    rcases hp.stops _ h2 (by simp [Msg.bad, h1]) with h | h | h | ⟨h | h | h, -⟩ <;> rw [h] <;> simp only [Main.begun] <;> omega

end TM.BadCase
