import Verif.Proto.Lemmas
import Verif.Proto.Spec
namespace TM.Proto

variable {M : Type}

theorem frames_ne_nil (a : Action M) : a.frames ≠ [] := by
  cases a <;> simp [Action.frames]

theorem frames_length_message {a : Action M} (h : a.isTransfer = false) : a.frames.length = 1 := by
  cases a <;> simp_all [Action.frames, Action.isTransfer]

/-- Running over the frames of a correct action. -/
theorem run_action (announces : M → Bool) (a : Action M) (h : a.Ok announces)
    (ev : List (Event M)) (rest : List (Frame M)) :
    Rx.run announces { events := ev, current := none } (a.frames ++ rest) =
      Rx.run announces { events := ev ++ [a.meaning], current := none } rest := by
  cases a with
  | message m =>
    simp only [Action.Ok] at h
    simp [Action.frames, Rx.run, Rx.step, h, Action.meaning]
  | file m answers content =>
    obtain ⟨h1, h2⟩ := h
    simp only [Action.frames, List.cons_append, Rx.run, Rx.step, h1, if_true]
    rw [run_sendFile, readChunks_flatten _ h2]
    rfl
  | data m content =>
    simp only [Action.Ok] at h
    simp only [Action.frames, List.cons_append, Rx.run, Rx.step, h, if_true]
    rw [run_sendData]
    rfl

theorem run_actions (announces : M → Bool) (as : List (Action M)) (h : ∀ a ∈ as, a.Ok announces) :
    ∀ (ev : List (Event M)) (rest : List (Frame M)),
    Rx.run announces { events := ev, current := none } (as.flatMap Action.frames ++ rest) =
      Rx.run announces { events := ev ++ as.map Action.meaning, current := none } rest := by
  induction as with
  | nil => intro ev rest; simp
  | cons a as ih =>
    intro ev rest
    rw [List.flatMap_cons, List.append_assoc, run_action _ _ (h a (by simp)),
      ih (fun a ha => h a (List.mem_cons_of_mem _ ha))]
    simp [List.append_assoc]

/-- A list of raw frames that is a prefix of a transfer does not break the receiver. -/
theorem run_prefix_chunks (announces : M → Bool) (chunks : List Bytes) (h : ∀ c ∈ chunks, c ≠ [])
    (ev : List (Event M)) (m : M) :
    ∀ (pre : List (Frame M)) (got : Bytes), pre <+: chunks.map .raw →
    ∃ got', Rx.run announces { events := ev, current := some (m, got) } pre = .midway ev m got' ∧
      got' <+: got ++ chunks.flatten := by
  induction chunks with
  | nil =>
    intro pre got hp
    have : pre = [] := by simpa using hp
    subst this
    exact ⟨got, rfl, by simp⟩
  | cons c cs ih =>
    intro pre got hp
    rcases pre with _ | ⟨f, pre⟩
    · exact ⟨got, rfl, List.prefix_append _ _⟩
    · rw [List.map_cons, List.cons_prefix_cons] at hp
      obtain ⟨rfl, hp⟩ := hp
      have hc : c ≠ [] := h c (by simp)
      obtain ⟨g, h1, h2⟩ := ih (fun c hc => h c (List.mem_cons_of_mem _ hc)) pre (got ++ c) hp
      refine ⟨g, ?_, ?_⟩
      · simp only [Rx.run, Rx.step, if_neg hc]; exact h1
      · simpa [List.append_assoc] using h2

/-- A proper, nonempty prefix of an action leaves the receiver in the middle of its transfer. -/
theorem run_prefix_action (announces : M → Bool) (a : Action M) (h : a.Ok announces)
    (ev : List (Event M)) (pre fs : List (Frame M)) (hsplit : a.frames = pre ++ fs)
    (hp : pre ≠ []) (hf : fs ≠ []) :
    ∃ m content got, a.meaning = .transfer m content ∧
      Rx.run announces { events := ev, current := none } pre = .midway ev m got ∧
      got <+: content := by
  have key : ∀ (m : M) (chunks : List Bytes), announces m = true → (∀ c ∈ chunks, c ≠ []) →
      a.frames = .msg m :: (chunks.map .raw ++ [.raw []]) →
      ∃ got, Rx.run announces { events := ev, current := none } pre = .midway ev m got ∧
        got <+: chunks.flatten := by
    intro m chunks hm hc he
    rw [he] at hsplit
    rcases pre with _ | ⟨f, pre⟩
    · exact absurd rfl hp
    · rw [List.cons_append, List.cons.injEq] at hsplit
      obtain ⟨rfl, hs⟩ := hsplit
      have hpre : pre <+: chunks.map .raw := by
        rcases List.append_eq_append_iff.1 hs with ⟨t, h1, h2⟩ | ⟨t, h1, _⟩
        · rcases t with _ | ⟨x, t⟩
          · rw [List.append_nil] at h1; rw [h1]; exact List.prefix_rfl
          · have : t ++ fs = [] := by simpa using (congrArg List.tail h2).symm
            have : fs = [] := (List.append_eq_nil_iff.1 this).2
            exact absurd this hf
        · exact ⟨t, h1.symm⟩
      obtain ⟨g, h1, h2⟩ := run_prefix_chunks announces chunks hc ev m pre [] hpre
      refine ⟨g, ?_, by simpa using h2⟩
      simp only [Rx.run, Rx.step, hm, if_true]
      exact h1
  cases a with
  | message m =>
    have := frames_length_message (a := Action.message m) rfl
    rw [hsplit, List.length_append] at this
    have h1 := List.length_pos_iff.2 hp
    have h2 := List.length_pos_iff.2 hf
    omega
  | file m answers content =>
    obtain ⟨h1, h2⟩ := h
    obtain ⟨g, h3, h4⟩ := key m (readChunks answers content) h1
      (fun c hc => readChunks_ne_nil hc) rfl
    rw [readChunks_flatten _ h2] at h4
    exact ⟨m, content, g, rfl, h3, h4⟩
  | data m content =>
    by_cases hc : content = []
    · subst hc
      obtain ⟨g, h3, h4⟩ := key m [] h (by simp) (by simp [Action.frames, sendData])
      exact ⟨m, [], g, rfl, h3, h4⟩
    · obtain ⟨g, h3, h4⟩ := key m [content] h (by simpa using hc)
        (by simp [Action.frames, sendData, hc])
      exact ⟨m, content, g, rfl, h3, by simpa using h4⟩

/-- The invariant of the threads: `L` are the actions completely sent, `pre` the frames already sent
of an incomplete one. -/
structure ShInv (init : Nat → List (Bool × Action M)) (s : Shared M) (L : List (Nat × Action M))
    (pre : List (Frame M)) : Prop where
  out : s.out = (L.map (·.2)).flatMap Action.frames ++ pre
  hist : ∀ i, (init i).map (·.2) = (L.filter (fun p => p.1 == i)).map (·.2) ++
    (match (s.threads i).cur with
      | some (_, a, _ :: _) => [a]
      | _ => []) ++ (s.threads i).todo.map (·.2)
  flags : ∀ i, (s.threads i).todo <:+ init i
  curFlag : ∀ i l a fs, (s.threads i).cur = some (l, a, fs) →
    (l, a) ∈ init i ∧ (l = true → s.lock = some i)
  clean : pre = [] → ∀ i l a fs, (s.threads i).cur = some (l, a, fs) → fs ≠ [] → fs = a.frames
  dirty : pre ≠ [] → ∃ i l a fs, (s.threads i).cur = some (l, a, fs) ∧ fs ≠ [] ∧
    a.frames = pre ++ fs ∧ l = true ∧ ∀ j, j ≠ i → (s.threads j).cur = none

theorem shInv_start (init : Nat → List (Bool × Action M)) :
    ShInv init { threads := fun i => { todo := init i } } [] [] where
  out := by simp
  hist := by intro i; simp
  flags := fun i => List.suffix_rfl
  curFlag := by intro i l a fs h; cases h
  clean := by intro _ i l a fs h; cases h
  dirty := fun h => absurd rfl h

theorem set_self (s : Shared M) (i : Nat) (t : Thread M) : (s.set i t).threads i = t := by
  simp [Shared.set]

theorem set_other (s : Shared M) {i j : Nat} (t : Thread M) (h : j ≠ i) :
    (s.set i t).threads j = s.threads j := by
  simp [Shared.set, h]

/-- A transfer in progress excludes the other threads from having anything in progress. -/
theorem excl {init : Nat → List (Bool × Action M)} (hd : Disciplined init) {s : Shared M}
    {L : List (Nat × Action M)} {pre : List (Frame M)} (h : ShInv init s L pre)
    {i : Nat} {l : Bool} {a : Action M} {fs : List (Frame M)}
    (hc : (s.threads i).cur = some (l, a, fs)) (ht : a.isTransfer = true) :
    l = true ∧ s.lock = some i ∧ ∀ j, j ≠ i → (s.threads j).cur = none := by
  obtain ⟨hm, hl⟩ := h.curFlag i l a fs hc
  have hl' : l = true := hd.transfers i l a hm ht
  refine ⟨hl', hl hl', ?_⟩
  intro j hj
  cases hcj : (s.threads j).cur with
  | none => rfl
  | some p =>
    obtain ⟨l2, a2, fs2⟩ := p
    obtain ⟨hm2, hl2⟩ := h.curFlag j l2 a2 fs2 hcj
    have := hd.others i j hj.symm ⟨l, a, hm, ht⟩ l2 a2 hm2
    have h1 := hl2 this
    rw [hl hl'] at h1
    exact absurd (Option.some.inj h1).symm hj

theorem shInv_step {init : Nat → List (Bool × Action M)} (hd : Disciplined init) {s s' : Shared M}
    {L : List (Nat × Action M)} {pre : List (Frame M)} (h : ShInv init s L pre)
    (hs : Shared.Step s s') : ∃ L' pre', ShInv init s' L' pre' := by
  cases hs with
  | begin i a rest hcur htodo =>
    refine ⟨L, pre, ?_, ?_, ?_, ?_, ?_, ?_⟩
    · exact h.out
    · intro j
      by_cases hj : j = i
      · subst hj
        have := h.hist j
        rw [hcur, htodo] at this
        rw [this, set_self]
        have hne := frames_ne_nil a
        cases hfr : a.frames with
        | nil => exact absurd hfr hne
        | cons f fs => simp
      · rw [set_other s _ hj]; exact h.hist j
    · intro j
      by_cases hj : j = i
      · subst hj
        rw [set_self]
        have := h.flags j
        rw [htodo] at this
        exact (List.suffix_cons _ _).trans this
      · rw [set_other s _ hj]; exact h.flags j
    · intro j l a' fs hc
      by_cases hj : j = i
      · subst hj
        rw [set_self] at hc
        cases hc
        refine ⟨?_, by simp⟩
        have := h.flags j
        rw [htodo] at this
        exact this.subset (by simp)
      · rw [set_other s _ hj] at hc; exact h.curFlag j l a' fs hc
    · intro hp j l a' fs hc hf
      by_cases hj : j = i
      · subst hj
        rw [set_self] at hc
        cases hc
        rfl
      · rw [set_other s _ hj] at hc; exact h.clean hp j l a' fs hc hf
    · intro hp
      obtain ⟨k, l, a', fs, h1, h2, h3, h4, h5⟩ := h.dirty hp
      have ht : a'.isTransfer = true := by
        cases hb : a'.isTransfer with
        | true => rfl
        | false =>
          have := frames_length_message hb
          rw [h3, List.length_append] at this
          have h1 := List.length_pos_iff.2 hp
          have h2 := List.length_pos_iff.2 h2
          omega
      by_cases hk : i = k
      · subst hk; rw [hcur] at h1; cases h1
      · have hm := h.flags i
        rw [htodo] at hm
        have := hd.others k i (fun e => hk e.symm) ⟨l, a', (h.curFlag k l a' fs h1).1, ht⟩ false a
          (hm.subset (by simp))
        cases this
  | acquire i a rest hcur htodo hlock =>
    have hp : pre = [] := by
      apply Classical.byContradiction
      intro hp
      obtain ⟨k, l, a', fs, h1, h2, h3, h4, h5⟩ := h.dirty hp
      have := (h.curFlag k l a' fs h1).2 h4
      rw [hlock] at this; cases this
    have hnol : ∀ j l a' fs, (s.threads j).cur = some (l, a', fs) → l = false := by
      intro j l a' fs hc
      cases l with
      | false => rfl
      | true => have := (h.curFlag j true a' fs hc).2 rfl; rw [hlock] at this; cases this
    refine ⟨L, pre, ?_, ?_, ?_, ?_, ?_, ?_⟩
    · exact h.out
    · intro j
      by_cases hj : j = i
      · subst hj
        have := h.hist j
        rw [hcur, htodo] at this
        rw [this]
        simp only [set_self]
        have hne := frames_ne_nil a
        cases hfr : a.frames with
        | nil => exact absurd hfr hne
        | cons f fs => simp
      · have := h.hist j; simpa only [set_other s _ hj] using this
    · intro j
      by_cases hj : j = i
      · subst hj
        simp only [set_self]
        have := h.flags j
        rw [htodo] at this
        exact (List.suffix_cons _ _).trans this
      · have := h.flags j; simpa only [set_other s _ hj] using this
    · intro j l a' fs hc
      by_cases hj : j = i
      · subst hj
        simp only [set_self] at hc
        cases hc
        refine ⟨?_, fun _ => rfl⟩
        have := h.flags j
        rw [htodo] at this
        exact this.subset (by simp)
      · simp only [set_other s _ hj] at hc
        refine ⟨(h.curFlag j l a' fs hc).1, ?_⟩
        intro hl
        have := hnol j l a' fs hc
        rw [this] at hl; cases hl
    · intro hp j l a' fs hc hf
      by_cases hj : j = i
      · subst hj
        simp only [set_self] at hc
        cases hc
        rfl
      · simp only [set_other s _ hj] at hc; exact h.clean hp j l a' fs hc hf
    · intro hp'; exact absurd hp hp'
  | send i l a f fs hcur =>
    by_cases hpre : pre = []
    · -- the first frame of an action
      have hfr : f :: fs = a.frames := h.clean hpre i l a _ hcur (by simp)
      subst hpre
      cases fs with
      | nil =>
        refine ⟨L ++ [(i, a)], [], ?_, ?_, ?_, ?_, ?_, ?_⟩
        · simp [h.out, List.flatMap_append, hfr]
        · intro j
          by_cases hj : j = i
          · subst hj
            have := h.hist j
            rw [hcur] at this
            rw [this]
            simp only [set_self]
            simp
          · have := h.hist j
            simp only [set_other s _ hj]
            rw [this]
            have : ¬ i = j := fun e => hj e.symm
            simp [List.filter_append, this]
        · intro j
          by_cases hj : j = i
          · subst hj; simp only [set_self]; exact h.flags j
          · simp only [set_other s _ hj]; exact h.flags j
        · intro j l' a' fs' hc
          by_cases hj : j = i
          · subst hj; simp only [set_self] at hc; cases hc; exact h.curFlag _ _ _ _ hcur
          · simp only [set_other s _ hj] at hc; exact h.curFlag _ _ _ _ hc
        · intro _ j l' a' fs' hc hf
          by_cases hj : j = i
          · subst hj; simp only [set_self] at hc; cases hc; exact absurd rfl hf
          · simp only [set_other s _ hj] at hc; exact h.clean rfl _ _ _ _ hc hf
        · intro hp; exact absurd rfl hp
      | cons f2 fs =>
        have ht : a.isTransfer = true := by
          cases hb : a.isTransfer with
          | true => rfl
          | false =>
            have := frames_length_message hb
            rw [← hfr] at this
            simp at this
        obtain ⟨e1, e2, e3⟩ := excl hd h hcur ht
        refine ⟨L, [f], ?_, ?_, ?_, ?_, ?_, ?_⟩
        · simp [h.out]
        · intro j
          by_cases hj : j = i
          · subst hj
            have := h.hist j
            rw [hcur] at this
            rw [this]
            simp only [set_self]
          · have := h.hist j
            simp only [set_other s _ hj]
            exact this
        · intro j
          by_cases hj : j = i
          · subst hj; simp only [set_self]; exact h.flags j
          · simp only [set_other s _ hj]; exact h.flags j
        · intro j l' a' fs' hc
          by_cases hj : j = i
          · subst hj; simp only [set_self] at hc; cases hc; exact h.curFlag _ _ _ _ hcur
          · simp only [set_other s _ hj] at hc; exact h.curFlag _ _ _ _ hc
        · intro hp; cases hp
        · intro _
          refine ⟨i, l, a, f2 :: fs, by simp only [set_self], by simp, by rw [← hfr]; rfl, e1, ?_⟩
          intro j hj
          simp only [set_other s _ hj]
          exact e3 j hj
    · obtain ⟨k, l0, a0, fs0, h1, h2, h3, h4, h5⟩ := h.dirty hpre
      have hk : k = i := by
        apply Classical.byContradiction
        intro hne
        rw [h5 i (fun e => hne e.symm)] at hcur; cases hcur
      subst hk
      rw [hcur] at h1
      cases h1
      cases fs with
      | nil =>
        refine ⟨L ++ [(k, a)], [], ?_, ?_, ?_, ?_, ?_, ?_⟩
        · simp [h.out, List.flatMap_append, h3]
        · intro j
          by_cases hj : j = k
          · subst hj
            have := h.hist j
            rw [hcur] at this
            rw [this]
            simp only [set_self]
            simp
          · have := h.hist j
            simp only [set_other s _ hj]
            rw [this]
            have : ¬ k = j := fun e => hj e.symm
            simp [List.filter_append, this]
        · intro j
          by_cases hj : j = k
          · subst hj; simp only [set_self]; exact h.flags j
          · simp only [set_other s _ hj]; exact h.flags j
        · intro j l' a' fs' hc
          by_cases hj : j = k
          · subst hj; simp only [set_self] at hc; cases hc; exact h.curFlag _ _ _ _ hcur
          · simp only [set_other s _ hj] at hc; exact h.curFlag _ _ _ _ hc
        · intro _ j l' a' fs' hc hf
          by_cases hj : j = k
          · subst hj; simp only [set_self] at hc; cases hc; exact absurd rfl hf
          · simp only [set_other s _ hj] at hc
            rw [h5 j hj] at hc; cases hc
        · intro hp; exact absurd rfl hp
      | cons f2 fs =>
        refine ⟨L, pre ++ [f], ?_, ?_, ?_, ?_, ?_, ?_⟩
        · simp [h.out]
        · intro j
          by_cases hj : j = k
          · subst hj
            have := h.hist j
            rw [hcur] at this
            rw [this]
            simp only [set_self]
          · have := h.hist j
            simp only [set_other s _ hj]
            exact this
        · intro j
          by_cases hj : j = k
          · subst hj; simp only [set_self]; exact h.flags j
          · simp only [set_other s _ hj]; exact h.flags j
        · intro j l' a' fs' hc
          by_cases hj : j = k
          · subst hj; simp only [set_self] at hc; cases hc; exact h.curFlag _ _ _ _ hcur
          · simp only [set_other s _ hj] at hc; exact h.curFlag _ _ _ _ hc
        · intro hp; simp at hp
        · intro _
          refine ⟨k, l, a, f2 :: fs, by simp only [set_self], by simp, by rw [h3]; simp, h4, ?_⟩
          intro j hj
          simp only [set_other s _ hj]
          exact h5 j hj
  | finish i l a hcur =>
    refine ⟨L, pre, ?_, ?_, ?_, ?_, ?_, ?_⟩
    · exact h.out
    · intro j
      by_cases hj : j = i
      · subst hj
        have := h.hist j
        rw [hcur] at this
        simp only [set_self]
        exact this
      · have := h.hist j
        simp only [set_other s _ hj]
        exact this
    · intro j
      by_cases hj : j = i
      · subst hj; simp only [set_self]; exact h.flags j
      · simp only [set_other s _ hj]; exact h.flags j
    · intro j l' a' fs' hc
      by_cases hj : j = i
      · subst hj; simp only [set_self] at hc; cases hc
      · simp only [set_other s _ hj] at hc
        obtain ⟨m1, m2⟩ := h.curFlag _ _ _ _ hc
        refine ⟨m1, fun hl => ?_⟩
        have hlk := m2 hl
        cases l with
        | false => simpa using hlk
        | true =>
          have := (h.curFlag _ _ _ _ hcur).2 rfl
          rw [hlk] at this
          exact absurd (Option.some.inj this) hj
    · intro hp j l' a' fs' hc hf
      by_cases hj : j = i
      · subst hj; simp only [set_self] at hc; cases hc
      · simp only [set_other s _ hj] at hc; exact h.clean hp _ _ _ _ hc hf
    · intro hp
      obtain ⟨k, l0, a0, fs0, h1, h2, h3, h4, h5⟩ := h.dirty hp
      have hk : k ≠ i := by
        rintro rfl
        rw [hcur] at h1
        cases h1
        exact h2 rfl
      rw [h5 i (fun e => hk e.symm)] at hcur
      cases hcur

theorem shInv_reach {init : Nat → List (Bool × Action M)} (hd : Disciplined init) {s : Shared M}
    (h : Shared.Reach init s) : ∃ L pre, ShInv init s L pre := by
  induction h with
  | start => exact ⟨[], [], shInv_start init⟩
  | step _ hs ih =>
    obtain ⟨L, pre, hi⟩ := ih
    exact shInv_step hd hi hs

end TM.Proto
