import Verif.Proto.Model
namespace TM.Proto

theorem readChunks_error (rest : List (Option Nat)) (content : Bytes) :
    readChunks (none :: rest) content = [] := by
  rw [readChunks]; rfl

theorem readChunks_some (n : Nat) (rest : List (Option Nat)) (content : Bytes) :
    readChunks (some n :: rest) content = if content = [] then []
      else content.take (readSize n) :: readChunks rest (content.drop (readSize n)) := by
  rw [readChunks]; simp

theorem readChunks_nil (content : Bytes) :
    readChunks [] content = if content = [] then []
      else content.take readBufferSize :: readChunks [] (content.drop readBufferSize) := by
  conv => lhs; rw [readChunks]
  simp

theorem readSize_pos (n : Nat) : 0 < readSize n := by unfold readSize; omega

theorem readSize_le (n : Nat) : readSize n ≤ readBufferSize := by
  unfold readSize readBufferSize; omega

/-- Induction principle: chunks are nonempty, bounded, and a prefix of the content, the whole of it
without failures. -/
theorem readChunks_spec : ∀ (k : Nat) (answers : List (Option Nat)) (content : Bytes),
    content.length ≤ k →
    (∀ c ∈ readChunks answers content, c ≠ [] ∧ c.length ≤ readBufferSize) ∧
    (readChunks answers content).flatten <+: content ∧
    (none ∉ answers → (readChunks answers content).flatten = content) := by
  intro k
  induction k with
  | zero =>
    intro answers content h
    have : content = [] := List.length_eq_zero_iff.1 (by omega)
    subst this
    rcases answers with _ | ⟨_ | n, rest⟩
    · rw [readChunks_nil]; simp
    · rw [readChunks_error]; simp
    · rw [readChunks_some]; simp
  | succ k ih =>
    intro answers content h
    by_cases hc : content = []
    · subst hc
      rcases answers with _ | ⟨_ | n, rest⟩
      · rw [readChunks_nil]; simp
      · rw [readChunks_error]; simp
      · rw [readChunks_some]; simp
    · have hl := List.length_pos_iff.2 hc
      have main : ∀ (sz : Nat) (rest : List (Option Nat)), 0 < sz → sz ≤ readBufferSize →
          (∀ c ∈ content.take sz :: readChunks rest (content.drop sz),
            c ≠ [] ∧ c.length ≤ readBufferSize) ∧
          (content.take sz :: readChunks rest (content.drop sz)).flatten <+: content ∧
          (none ∉ rest →
            (content.take sz :: readChunks rest (content.drop sz)).flatten = content) := by
        intro sz rest h1 h2
        obtain ⟨a, b, c⟩ := ih rest (content.drop sz) (by simp only [List.length_drop]; omega)
        refine ⟨?_, ?_, ?_⟩
        · intro x hx
          rcases List.mem_cons.1 hx with rfl | hx
          · refine ⟨?_, ?_⟩
            · intro e
              have := congrArg List.length e
              simp only [List.length_take, List.length_nil] at this
              omega
            · simp only [List.length_take]; omega
          · exact a x hx
        · obtain ⟨t, ht⟩ := b
          refine ⟨t, ?_⟩
          rw [List.flatten_cons, List.append_assoc, ht, List.take_append_drop]
        · intro hn
          rw [List.flatten_cons, c hn, List.take_append_drop]
      rcases answers with _ | ⟨_ | n, rest⟩
      · rw [readChunks_nil, if_neg hc]
        obtain ⟨a, b, c⟩ := main readBufferSize [] (by decide) (Nat.le_refl _)
        exact ⟨a, b, fun _ => c (by simp)⟩
      · rw [readChunks_error]; simp
      · rw [readChunks_some, if_neg hc]
        obtain ⟨a, b, c⟩ := main (readSize n) rest (readSize_pos n) (readSize_le n)
        exact ⟨a, b, fun hn => c (fun h => hn (List.mem_cons_of_mem _ h))⟩

theorem readChunks_ne_nil {answers : List (Option Nat)} {content : Bytes} {c : Bytes}
    (h : c ∈ readChunks answers content) : c ≠ [] :=
  ((readChunks_spec _ answers content (Nat.le_refl _)).1 c h).1

theorem readChunks_flatten {answers : List (Option Nat)} (content : Bytes) (h : none ∉ answers) :
    (readChunks answers content).flatten = content :=
  (readChunks_spec _ answers content (Nat.le_refl _)).2.2 h

theorem recvFile_chunks {M : Type} (chunks : List Bytes) (rest : List (Frame M))
    (h : ∀ c ∈ chunks, c ≠ []) :
    recvFile (chunks.map .raw ++ .raw [] :: rest) = some (chunks, rest) := by
  induction chunks with
  | nil => simp [recvFile]
  | cons c cs ih =>
    have hc : c ≠ [] := h c (by simp)
    simp only [List.map_cons, List.cons_append, recvFile, if_neg hc]
    rw [ih (fun c hc => h c (List.mem_cons_of_mem _ hc))]
    rfl

/-! ## The receiving loop -/

theorem run_append {M : Type} (announces : M → Bool) (fs gs : List (Frame M)) :
    ∀ (s : Rx M), Rx.run announces s (fs ++ gs) =
      match Rx.run announces s fs with
      | .idle ev => Rx.run announces { events := ev, current := none } gs
      | .midway ev m got => Rx.run announces { events := ev, current := some (m, got) } gs
      | .broken ev => .broken ev := by
  induction fs with
  | nil =>
    intro s
    obtain ⟨ev, cur⟩ := s
    rcases cur with _ | ⟨m, got⟩ <;> rfl
  | cons f fs ih =>
    intro s
    simp only [List.cons_append, Rx.run]
    cases s.step announces f with
    | none => rfl
    | some s' => exact ih s'

theorem run_chunks {M : Type} (announces : M → Bool) (chunks : List Bytes)
    (h : ∀ c ∈ chunks, c ≠ []) : ∀ (ev : List (Event M)) (m : M) (got : Bytes),
    Rx.run announces { events := ev, current := some (m, got) } (chunks.map .raw) =
      .midway ev m (got ++ chunks.flatten) := by
  induction chunks with
  | nil => intro ev m got; simp [Rx.run]
  | cons c cs ih =>
    intro ev m got
    have hc : c ≠ [] := h c (by simp)
    simp only [List.map_cons, Rx.run, Rx.step, if_neg hc]
    rw [ih (fun c hc => h c (List.mem_cons_of_mem _ hc))]
    simp [List.append_assoc]

theorem run_terminator {M : Type} (announces : M → Bool) (ev : List (Event M)) (m : M)
    (got : Bytes) (rest : List (Frame M)) :
    Rx.run announces { events := ev, current := some (m, got) } (.raw [] :: rest) =
      Rx.run announces { events := ev ++ [.transfer m got], current := none } rest := by
  simp [Rx.run, Rx.step]

theorem run_sendFile {M : Type} (announces : M → Bool) (answers : List (Option Nat))
    (content : Bytes) (ev : List (Event M)) (m : M) (rest : List (Frame M)) :
    Rx.run announces { events := ev, current := some (m, []) } (sendFile answers content ++ rest) =
      Rx.run announces { events := ev ++ [.transfer m (readChunks answers content).flatten],
                         current := none } rest := by
  unfold sendFile
  rw [List.append_assoc, run_append, run_chunks _ _ (fun c hc => readChunks_ne_nil hc)]
  simp only [List.nil_append, List.singleton_append]
  rw [run_terminator]

theorem run_sendData {M : Type} (announces : M → Bool)
    (content : Bytes) (ev : List (Event M)) (m : M) (rest : List (Frame M)) :
    Rx.run announces { events := ev, current := some (m, []) } (sendData content ++ rest) =
      Rx.run announces { events := ev ++ [.transfer m content], current := none } rest := by
  unfold sendData
  by_cases h : content = []
  · subst h
    simp only [ne_eq, not_true_eq_false, if_false, List.cons_append, List.nil_append]
    rw [run_terminator]
  · simp only [ne_eq, h, not_false_eq_true, if_true, List.cons_append, List.nil_append]
    rw [show (Frame.raw content :: Frame.raw [] :: rest : List (Frame M)) =
      [content].map .raw ++ (.raw [] :: rest) from rfl, run_append,
      run_chunks _ _ (by simpa using h)]
    simp only [List.flatten_cons, List.flatten_nil, List.append_nil, List.nil_append]
    rw [run_terminator]

end TM.Proto
