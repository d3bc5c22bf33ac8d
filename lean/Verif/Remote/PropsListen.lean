import Verif.Remote.Connect
/-!
# C120: the listeners of a server
-/

namespace TM.Remote

/-! ## Specification -/

/-- The connection says it is of the version of the server. -/
def Right (ours : List Char) (cs : List First) (i : Nat) (name : List Char) : Prop :=
  cs[i]? = some (.welcome name ours)

/-- The listener gets to the `i`-th connection: no connection before is left open without a word, and the
executor was there for all the good ones before. -/
def Reached (ours : List Char) (alive : Nat → Bool) (cs : List First) (i : Nat) : Prop :=
  i < cs.length ∧ ∀ j < i, cs[j]? ≠ some .silent ∧ ((∃ n, Right ours cs j n) → alive j = true)

/-- The answer a peer receives. -/
def Answered (evs : List Ev) (i : Nat) : Answer → Prop
  | .accepted => .accept i ∈ evs
  | .rejected => ∃ v, .reject i v ∈ evs
  | .nothing => .accept i ∉ evs ∧ ∀ v, .reject i v ∉ evs

/-- The names handed to the executor, in order. -/
def deliveredNames : List Ev → List (Nat × List Char)
  | [] => []
  | .deliver i n :: es => (i, n) :: deliveredNames es
  | _ :: es => deliveredNames es

/-! ## Lemmas -/

/-- The specification with the connections numbered from `k`. -/
theorem listen_mem (ours : List Char) (alive : Nat → Bool) (cs : List First) : ∀ (k i : Nat),
    let Reach := i < cs.length ∧ ∀ j < i, cs[j]? ≠ some .silent ∧
      ((∃ n, cs[j]? = some (.welcome n ours)) → alive (k + j) = true)
    ((.accept (k + i) ∈ (listen ours alive k cs).1 ↔ Reach ∧ ∃ n, cs[i]? = some (.welcome n ours)) ∧
     (∀ v, .reject (k + i) v ∈ (listen ours alive k cs).1 ↔
        Reach ∧ v ≠ ours ∧ ∃ n, cs[i]? = some (.welcome n v)) ∧
     (∀ n, .deliver (k + i) n ∈ (listen ours alive k cs).1 ↔
        Reach ∧ cs[i]? = some (.welcome n ours) ∧ alive (k + i) = true)) := by
  induction cs with
  | nil => intro k i; simp [listen]
  | cons c cs ih =>
    intro k i
    have low : ∀ (m : Nat) (es : List Ev), m < k + 1 → es = (listen ours alive (k + 1) cs).1 →
        (.accept m ∉ es ∧ (∀ v, .reject m v ∉ es) ∧ ∀ n, .deliver m n ∉ es) := by
      intro m es hm hes
      subst hes
      clear ih
      generalize k + 1 = q at hm
      induction cs generalizing q with
      | nil => simp [listen]
      | cons d ds ih2 =>
        have h2 := ih2 (q + 1) (by omega)
        cases d with
        | silent => simp [listen]
        | broken => simpa [listen] using h2
        | welcome n v =>
          unfold listen validateWelcome
          by_cases hv : v = ours
          · by_cases ha : alive q = true
            · simp only [hv, ha, ne_eq, not_true, if_false, if_true, List.mem_cons, Ev.accept.injEq,
                Ev.deliver.injEq, reduceCtorEq, false_or]
              refine ⟨?_, h2.2.1, ?_⟩
              · rintro (h | h)
                · omega
                · exact h2.1 h
              · rintro n' (h | h)
                · omega
                · exact h2.2.2 n' h
            · simp [hv, ha]; omega
          · simp only [hv, ne_eq, not_false_iff, if_true, Bool.false_eq_true, if_false, List.mem_cons,
              Ev.reject.injEq, reduceCtorEq, false_or]
            refine ⟨h2.1, ?_, h2.2.2⟩
            rintro v' (h | h)
            · omega
            · exact h2.2.1 v' h
    cases i with
    | zero =>
      have hl := low k _ (by omega) rfl
      have hr : (0 < (c :: cs).length ∧ ∀ j < 0, (c :: cs)[j]? ≠ some .silent ∧
          ((∃ n, (c :: cs)[j]? = some (.welcome n ours)) → alive (k + j) = true)) := by
        exact ⟨by simp, fun j hj => absurd hj (by omega)⟩
      intro Reach
      have hr' : Reach = True := eq_true hr
      clear_value Reach
      subst hr'
      simp only [true_and, Nat.add_zero, List.getElem?_cons_zero, Option.some.injEq]
      cases c with
      | silent => simp [listen]
      | broken => simp [listen]; exact hl
      | welcome n v =>
        unfold listen validateWelcome
        by_cases hv : v = ours
        · subst hv
          by_cases ha : alive k = true
          · simp only [ha, ne_eq, not_true, if_false, if_true, List.mem_cons, Ev.accept.injEq,
              Ev.deliver.injEq, reduceCtorEq, false_or, true_or, true_and, First.welcome.injEq,
              and_true, true_iff]
            refine ⟨⟨n, rfl⟩, ?_, ?_⟩
            · intro v'
              constructor
              · intro h; exact absurd h (hl.2.1 v')
              · rintro ⟨h1, _, _, h2⟩; exact absurd h2.symm h1
            · intro n'
              constructor
              · rintro (h | h)
                · exact h.symm
                · exact absurd h (hl.2.2 n')
              · intro h; exact .inl h.symm
          · simp only [ha, ne_eq, not_true, if_false, if_true, List.mem_cons, List.not_mem_nil,
              First.welcome.injEq, reduceCtorEq, or_false, and_false, and_true, true_iff,
              false_iff, Bool.false_eq_true]
            refine ⟨⟨n, rfl⟩, ?_, by simp⟩
            rintro v' ⟨h1, _, _, h2⟩
            exact h1 h2.symm
        · simp only [hv, ne_eq, not_false_iff, if_true, Bool.false_eq_true, if_false, List.mem_cons,
            Ev.reject.injEq, reduceCtorEq, false_or, First.welcome.injEq, true_and, and_false,
            exists_false, false_and, iff_false]
          refine ⟨hl.1, ?_, hl.2.2⟩
          intro v'
          constructor
          · rintro (rfl | h)
            · exact ⟨hv, n, rfl, rfl⟩
            · exact absurd h (hl.2.1 v')
          · rintro ⟨_, _, _, h⟩; exact .inl h.symm
    | succ i =>
      have hi := ih (k + 1) i
      have e : ∀ m, k + 1 + m = k + (m + 1) := by intro m; omega
      simp only [e] at hi
      have hstep : c ≠ .silent → ((∃ n, c = .welcome n ours) → alive k = true) →
          ((i + 1 < (c :: cs).length ∧ ∀ j < i + 1, (c :: cs)[j]? ≠ some .silent ∧
            ((∃ n, (c :: cs)[j]? = some (.welcome n ours)) → alive (k + j) = true)) ↔
           (i < cs.length ∧ ∀ j < i, cs[j]? ≠ some .silent ∧
            ((∃ n, cs[j]? = some (.welcome n ours)) → alive (k + (j + 1)) = true))) := by
        intro h1 h2
        constructor
        · rintro ⟨h3, h4⟩
          refine ⟨by simpa using h3, fun j hj => ?_⟩
          exact h4 (j + 1) (by omega)
        · rintro ⟨h3, h4⟩
          refine ⟨by simpa using h3, fun j hj => ?_⟩
          cases j with
          | zero =>
            simp only [List.getElem?_cons_zero, Option.some.injEq, ne_eq, Nat.add_zero]
            exact ⟨h1, h2⟩
          | succ j => exact h4 j (by omega)
      have hstuck : (c = .silent ∨ (∃ n, c = .welcome n ours) ∧ alive k = false) →
          ¬ (i + 1 < (c :: cs).length ∧ ∀ j < i + 1, (c :: cs)[j]? ≠ some .silent ∧
            ((∃ n, (c :: cs)[j]? = some (.welcome n ours)) → alive (k + j) = true)) := by
        rintro (rfl | ⟨⟨n, rfl⟩, h⟩) ⟨_, h4⟩
        · exact absurd rfl (h4 0 (by omega)).1
        · have := (h4 0 (by omega)).2 ⟨n, rfl⟩
          rw [Nat.add_zero, h] at this
          exact absurd this (by simp)
      simp only [List.getElem?_cons_succ]
      cases c with
      | silent =>
        have := hstuck (.inl rfl)
        simp only [this, false_and, iff_false]
        simp [listen]
      | broken =>
        rw [hstep (by simp) (by simp)]
        simpa only [listen] using hi
      | welcome n v =>
        unfold listen validateWelcome
        by_cases hv : v = ours
        · subst hv
          by_cases ha : alive k = true
          · rw [hstep (by simp) (fun _ => ha)]
            have hk : ¬ (k + (i + 1) = k) := by omega
            simp only [ha, ne_eq, not_true, if_false, if_true, List.mem_cons, Ev.accept.injEq,
              Ev.deliver.injEq, reduceCtorEq, false_or, hk, false_and]
            exact hi
          · have := hstuck (.inr ⟨⟨n, rfl⟩, by simpa using ha⟩)
            simp only [this, false_and, iff_false]
            simp [ha]
        · rw [hstep (by simp) (by rintro ⟨n', h⟩; injection h with _ h; exact absurd h hv)]
          have hk : ¬ (k + (i + 1) = k) := by omega
          simp only [hv, ne_eq, not_false_iff, if_true, Bool.false_eq_true, if_false, List.mem_cons,
            Ev.reject.injEq, reduceCtorEq, false_or, hk, false_and]
          exact hi

theorem listen_at (ours : List Char) (alive : Nat → Bool) (cs : List First) (i : Nat) :
    ((.accept i ∈ (listen ours alive 0 cs).1 ↔ Reached ours alive cs i ∧ ∃ n, Right ours cs i n) ∧
     (∀ v, .reject i v ∈ (listen ours alive 0 cs).1 ↔
        Reached ours alive cs i ∧ v ≠ ours ∧ ∃ n, cs[i]? = some (.welcome n v)) ∧
     (∀ n, .deliver i n ∈ (listen ours alive 0 cs).1 ↔
        Reached ours alive cs i ∧ Right ours cs i n ∧ alive i = true)) := by
  have := listen_mem ours alive cs 0 i
  simp only [Nat.zero_add] at this
  exact this

/-! ## C120 -/

/-- **C120** a connection is handed to the executor exactly when its first message is a welcome with the
version of the server (and the listener gets there, with the executor still running); it is known by the name
of its welcome. -/
theorem delivered_iff (ours : List Char) (alive : Nat → Bool) (cs : List First) (i : Nat) (n : List Char) :
    .deliver i n ∈ (listen ours alive 0 cs).1 ↔
      Reached ours alive cs i ∧ Right ours cs i n ∧ alive i = true :=
  (listen_at ours alive cs i).2.2 n

/-- **C120** the answer: `Accepted` for the right version, `Rejected` for a wrong one, none for
something else. -/
theorem answer_iff (ours : List Char) (alive : Nat → Bool) (cs : List First) (i : Nat)
    (h : Reached ours alive cs i) :
    (Answered (listen ours alive 0 cs).1 i .accepted ↔ ∃ n, Right ours cs i n) ∧
    (Answered (listen ours alive 0 cs).1 i .rejected ↔
      ∃ n v, cs[i]? = some (.welcome n v) ∧ v ≠ ours) ∧
    (Answered (listen ours alive 0 cs).1 i .nothing ↔
      cs[i]? = some .silent ∨ cs[i]? = some .broken) := by
  obtain ⟨h1, h2, _⟩ := listen_at ours alive cs i
  simp only [Answered, h1, h2, h, true_and]
  refine ⟨⟨?_, ?_⟩, ⟨?_, ?_⟩⟩
  · rintro ⟨v, hv, n, hn⟩; exact ⟨n, v, hn, hv⟩
  · rintro ⟨n, v, hn, hv⟩; exact ⟨v, hv, n, hn⟩
  · rintro ⟨h3, h4⟩
    have hlt := h.1
    cases hc : cs[i]? with
    | none => rw [List.getElem?_eq_none_iff] at hc; omega
    | some c =>
      cases c with
      | silent => exact .inl rfl
      | broken => exact .inr rfl
      | welcome n v =>
        by_cases hv : v = ours
        · exact absurd ⟨n, by unfold Right; rw [hc, hv]⟩ h3
        · exact absurd ⟨hv, n, hc⟩ (h4 v)
  · unfold Right
    rintro (h3 | h3) <;> rw [h3] <;> simp

/-- **C120** a peer never gets two answers, and is never told it is accepted when the version is wrong. -/
theorem one_answer (ours : List Char) (alive : Nat → Bool) (cs : List First) (i : Nat) :
    ¬ (Answered (listen ours alive 0 cs).1 i .accepted ∧ Answered (listen ours alive 0 cs).1 i .rejected) := by
  rintro ⟨h1, v, h2⟩
  obtain ⟨_, n, hn⟩ := (listen_at ours alive cs i).1.mp h1
  obtain ⟨_, hv, n', hn'⟩ := ((listen_at ours alive cs i).2.1 v).mp h2
  unfold Right at hn
  rw [hn] at hn'
  simp only [Option.some.injEq, First.welcome.injEq] at hn'
  exact hv hn'.2.symm

/-- **C120** the peer goes on exactly when the server hands its connection to the executor, unless the
executor is gone. -/
theorem both_agree (ours : List Char) (alive : Nat → Bool) (cs : List First) (i : Nat) (a : Answer)
    (ha : Answered (listen ours alive 0 cs).1 i a) (hal : alive i = true) :
    peerGoesOn a = true ↔ ∃ n, .deliver i n ∈ (listen ours alive 0 cs).1 := by
  obtain ⟨h1, h2, h3⟩ := listen_at ours alive cs i
  simp only [h3, hal, and_true]
  cases a with
  | accepted =>
    obtain ⟨h4, n, h5⟩ := h1.mp ha
    simp only [peerGoesOn, true_iff]
    exact ⟨n, h4, h5⟩
  | rejected =>
    obtain ⟨v, hv⟩ := ha
    obtain ⟨h4, h5, n, h6⟩ := (h2 v).mp hv
    simp only [peerGoesOn, Bool.false_eq_true, false_iff]
    rintro ⟨n', _, h7⟩
    unfold Right at h7
    rw [h6] at h7
    simp only [Option.some.injEq, First.welcome.injEq] at h7
    exact h5 h7.2
  | nothing =>
    simp only [peerGoesOn, Bool.false_eq_true, false_iff]
    rintro ⟨n, h4, h5⟩
    exact ha.1 (h1.mpr ⟨h4, n, h5⟩)

/-- The good ones, with their positions. -/
def goodOnes (ours : List Char) : Nat → List First → List (Nat × List Char)
  | _, [] => []
  | k, .welcome n v :: cs => if v = ours then (k, n) :: goodOnes ours (k + 1) cs else goodOnes ours (k + 1) cs
  | k, _ :: cs => goodOnes ours (k + 1) cs

/-- **C120** when every peer says something (or goes away) and the executor stays, all the good connections
are handed over, each once, in the order they arrived, and the listener goes on waiting for others. -/
theorem all_served_partial (ours : List Char) (cs : List First) (h : .silent ∉ cs) : ∀ k,
    deliveredNames (listen ours (fun _ => true) k cs).1 = goodOnes ours k cs ∧
      (listen ours (fun _ => true) k cs).2 = .waiting := by
  induction cs with
  | nil => intro k; exact ⟨rfl, rfl⟩
  | cons c cs ih =>
    intro k
    have hi := ih (fun h' => h (List.mem_cons_of_mem _ h')) (k + 1)
    cases c with
    | silent => exact absurd (by simp) h
    | broken => exact hi
    | welcome n v =>
      unfold listen validateWelcome goodOnes
      by_cases hv : v = ours
      · simp only [hv, ne_eq, not_true, if_false, if_true, deliveredNames]
        exact ⟨by rw [hi.1], hi.2⟩
      · simp only [hv, ne_eq, not_false_iff, if_true, Bool.false_eq_true, if_false, deliveredNames]
        exact hi

/-- **C120** one peer that connects and says nothing stops the listener: no connection after it is answered or
handed over, for ever. -/
theorem silent_blocks (ours : List Char) (alive : Nat → Bool) (cs : List First) (i : Nat)
    (h : cs[i]? = some .silent) : ∀ j, i < j → Answered (listen ours alive 0 cs).1 j .nothing ∧
      ∀ n, .deliver j n ∉ (listen ours alive 0 cs).1 := by
  intro j hj
  have hr : ¬ Reached ours alive cs j := fun hr => (hr.2 i hj).1 h
  obtain ⟨h1, h2, h3⟩ := listen_at ours alive cs j
  simp only [Answered, h1, h2, h3, hr, false_and, not_false_iff, and_self, implies_true]

/-- **C120** hence a good peer is not always served. -/
theorem not_always_served : ¬ ∀ (ours : List Char) (cs : List First) (i : Nat) (n : List Char),
    cs[i]? = some (.welcome n ours) → .deliver i n ∈ (listen ours (fun _ => true) 0 cs).1 := by
  intro h
  have := h ['1'] [.silent, .welcome ['a'] ['1']] 1 ['a'] rfl
  exact (silent_blocks ['1'] (fun _ => true) [.silent, .welcome ['a'] ['1']] 0 rfl 1 (by omega)).2 _ this

/-- **C120** a bound address and a URL agree on the encryption: with the same password both ends use the same
key, without any neither does, and a unix socket is never encrypted. -/
theorem bind_key (w : World) (addr : List Char) (p : Option (List Char)) :
    (∀ path, addr = "unix://".toList ++ path → bindTo w addr p = .unix path) ∧
    ((∀ path, addr ≠ "unix://".toList ++ path) → bindTo w addr p = .tcp addr (p.map w.key)) := by
  unfold bindTo
  constructor
  · rintro path rfl
    rw [if_pos]
    · rfl
    · rw [List.isPrefixOf_iff_prefix]
      exact ⟨path, rfl⟩
  · intro h
    rw [if_neg]
    · cases p <;> rfl
    · intro h1
      rw [List.isPrefixOf_iff_prefix] at h1
      obtain ⟨path, h1⟩ := h1
      exact h path h1.symm

/-- **C120** the number given to a worker, documented as a way to tell the workers of a machine apart, does not
reach the server: all the workers of a machine connect under the same name. -/
theorem worker_number_lost (machine : List Char) (nameOpt : Option (List Char)) (id id' : Option Nat)
    (v : List Char) : workerWelcome machine nameOpt id v = workerWelcome machine nameOpt id' v := rfl

/-! The hypotheses are met. -/

example : listen ['1'] (fun _ => true) 0
    [.welcome ['a'] ['1'], .broken, .welcome ['b'] ['0'], .welcome ['c'] ['1'], .silent, .welcome ['d'] ['1']] =
    ([.accept 0, .deliver 0 ['a'], .reject 2 ['0'], .accept 3, .deliver 3 ['c']], .stuck 4) := by decide
example : listen ['1'] (fun i => i = 0) 0 [.welcome ['a'] ['1'], .welcome ['c'] ['1'], .welcome ['d'] ['1']] =
    ([.accept 0, .deliver 0 ['a'], .accept 1], .gone 1) := by decide
example : Reached ['1'] (fun _ => true) [.broken, .welcome ['b'] ['0'], .welcome ['c'] ['1']] 2 := by
  refine ⟨by decide, ?_⟩
  intro j hj
  match j, hj with
  | 0, _ => exact ⟨by decide, fun _ => rfl⟩
  | 1, _ => exact ⟨by decide, fun _ => rfl⟩
example : workerLocalName ['m'] none (some 1) ≠ workerLocalName ['m'] none (some 2) := by decide

end TM.Remote
