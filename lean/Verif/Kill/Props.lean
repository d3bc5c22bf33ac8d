import Verif.Kill.Model
/-!
# C140: stopping a sandbox
-/
namespace TM.Kill

/-- What a machine can do after it starts. -/
def Reach (s : State) : Prop := ∃ others l, run (.init others) l = some s

/-! ## Lemmas -/

theorem run_append {s : State} {l l' : List Action} : run s (l ++ l') = (run s l).bind (run · l') := by
  induction l generalizing s with
  | nil => rfl
  | cons a l ih =>
    simp only [List.cons_append, run]
    cases step s a with
    | none => rfl
    | some s' => exact ih

theorem reach_step {s s' : State} {a : Action} (h : Reach s) (hs : step s a = some s') : Reach s' := by
  obtain ⟨o, l, hl⟩ := h
  refine ⟨o, l ++ [a], ?_⟩
  rw [run_append, hl]
  simp [run, hs]

theorem run_inv {P : State → Prop} (hstep : ∀ s a s', P s → step s a = some s' → P s') :
    ∀ {l : List Action} {s s' : State}, P s → run s l = some s' → P s'
  | [], s, s', h, hr => by
    simp only [run, Option.some.injEq] at hr
    exact hr ▸ h
  | a :: l, s, s', h, hr => by
    simp only [run] at hr
    cases hs : step s a with
    | none => simp [hs] at hr
    | some t =>
      rw [hs] at hr
      exact run_inv hstep (hstep s a t h hs) hr

/-- What holds at any time. -/
structure Inv (s : State) : Prop where
  sandbox : ∀ p, s.owner p = some .sandbox → s.runner = .storing p ∨ s.runner = .waiting p ∨ (s.runner = .ended false ∧ s.cell = p)
  owned : ∀ p, (s.runner = .storing p ∨ s.runner = .waiting p) → p ≠ 0 ∧ s.owner p = some .sandbox
  cell : s.cell ≠ 0 → s.runner = .waiting s.cell ∨ s.runner = .ended true ∨ (s.runner = .ended false ∧ s.owner s.cell = some .sandbox)
  waited : ∀ p, s.runner = .waiting p → s.cell = p
  killer : ∀ p, s.killer = .sending p → p ≠ 0 ∧ s.cell = p
  log : ∀ p o, .signal p o ∈ s.log → p ≠ 0 ∧ s.cell = p

theorem inv_init (others : Pid → Option Nat) : Inv (.init others) := by
  constructor <;> simp [State.init]

theorem inv_step {s s' : State} {a : Action} (h : Inv s) (hs : step s a = some s') : Inv s' := by
  obtain ⟨h1, h2, h3, h4, h5, h6⟩ := h
  cases a with
  | spawn p =>
    simp only [step] at hs
    split at hs
    · next hc =>
      cases hs
      obtain ⟨c1, c2, c3⟩ := hc
      constructor <;> simp_all [set] <;> grind
    · cases hs
  | spawnFails =>
    simp only [step] at hs
    split at hs
    · cases hs
      constructor <;> grind
    · cases hs
  | store =>
    simp only [step] at hs
    split at hs
    · next p hp =>
      cases hs
      constructor <;> grind
    · cases hs
  | reap =>
    simp only [step] at hs
    split at hs
    · next p hp =>
      cases hs
      constructor <;> simp only [set] <;> grind
    · cases hs
  | writeFails =>
    simp only [step] at hs
    split at hs
    · cases hs
      constructor <;> grind
    · cases hs
  | call =>
    simp only [step] at hs
    split at hs
    · cases hs
      constructor <;> grind
    · cases hs
  | read =>
    simp only [step] at hs
    split at hs
    · cases hs
      constructor <;> grind
    · cases hs
      constructor <;> grind
    · cases hs
  | send =>
    simp only [step] at hs
    split at hs
    · cases hs
      constructor <;> grind
    · cases hs
  | fork p n =>
    simp only [step] at hs
    split at hs
    · cases hs
      constructor <;> simp only [set] <;> grind
    · cases hs
  | exit p =>
    simp only [step] at hs
    split at hs
    · cases hs
      constructor <;> simp only [set] <;> grind
    · cases hs

theorem reach_inv {s : State} (h : Reach s) : Inv s := by
  obtain ⟨o, l, hl⟩ := h
  exact run_inv (P := Inv) (fun _ _ _ => inv_step) (inv_init o) hl

theorem run_hist {P : State → List Action → Prop} (hstep : ∀ s h a s', P s h → step s a = some s' → P s' (h ++ [a])) :
    ∀ {l h : List Action} {s s' : State}, P s h → run s l = some s' → P s' (h ++ l)
  | [], h, s, s', hp, hr => by
    simp only [run, Option.some.injEq] at hr
    rw [List.append_nil]
    exact hr ▸ hp
  | a :: l, h, s, s', hp, hr => by
    simp only [run] at hr
    cases hs : step s a with
    | none => simp [hs] at hr
    | some t =>
      rw [hs] at hr
      have := run_hist hstep (hstep s h a t hp hs) hr
      rwa [List.append_assoc] at this

/-- Whose number is known comes from its start. -/
def Spawned (s : State) (h : List Action) : Prop :=
  (∀ p, s.runner = .storing p → .spawn p ∈ h) ∧ (s.cell ≠ 0 → .spawn s.cell ∈ h)

theorem spawned_step {s s' : State} {h : List Action} {a : Action} (hp : Spawned s h) (hs : step s a = some s') :
    Spawned s' (h ++ [a]) := by
  obtain ⟨h1, h2⟩ := hp
  cases a <;> simp only [step] at hs <;> split at hs <;> cases hs <;>
    constructor <;> simp only [List.mem_append, List.mem_singleton] <;> grind

/-- A call of `kill` has so many steps left. -/
def left : Killer → Nat
  | .idle => 0
  | .reading n => n + 1
  | .sending _ => 1

theorem left_step {s s' : State} {a : Action} (hs : step s a = some s') :
    left s'.killer + (if a = .read ∨ a = .send then 1 else 0) ≤ left s.killer + (if a = .call then 6 else 0) := by
  cases a <;> simp only [step] at hs <;> split at hs <;> cases hs <;>
    simp_all [left] <;> grind [left]

/-! ## C140 -/

/-- **C140** A signal is sent only to the number that the process of the sandbox had when it started, never to zero (which is
all of the processes of the group). -/
theorem signal_number {others : Pid → Option Nat} {l : List Action} {s : State} (h : run (.init others) l = some s) {p : Pid}
    {o : Option Proc} (hp : .signal p o ∈ s.log) : p ≠ 0 ∧ .spawn p ∈ l := by
  have h1 := (reach_inv ⟨others, l, h⟩).log p o hp
  have h2 := run_hist (P := Spawned) (fun _ _ _ _ => spawned_step) (h := []) (s := .init others) (by simp [Spawned, State.init]) h
  rw [List.nil_append] at h2
  exact ⟨h1.1, h1.2 ▸ h2.2 (by rw [h1.2]; exact h1.1)⟩

/-- **C140** As long as the process of the sandbox has not been waited for, it is the one that gets the signal. -/
theorem signal_reaches_partial {s s' : State} (h : Reach s) {p : Pid} (hr : s.runner = .waiting p) (hs : step s .send = some s') :
    s'.log = .signal p (some .sandbox) :: s.log := by
  have hi := reach_inv h
  simp only [step] at hs
  split at hs
  · next q hq =>
    cases hs
    have h1 := hi.killer q hq
    have h2 := hi.waited p hr
    have : q = p := h1.2.symm.trans h2
    subst this
    simp only [(hi.owned q (.inr hr)).2]
  · cases hs

/-- **C140** A process of somebody else gets a signal only after the sandbox is over. -/
theorem another_only_late {s s' : State} (h : Reach s) {p : Pid} {n : Nat} (hs : step s .send = some s')
    (hl : s'.log = .signal p (some (.other n)) :: s.log) : s.runner = .ended true := by
  have hi := reach_inv h
  simp only [step] at hs
  split at hs
  · next q hq =>
    cases hs
    simp only [List.cons.injEq, Outcome.signal.injEq, and_true] at hl
    obtain ⟨rfl, ho⟩ := hl
    have h1 := hi.killer q hq
    rcases hi.cell (by rw [h1.2]; exact h1.1) with h2 | h2 | ⟨_, h2⟩
    · have := hi.owned q (.inr (h1.2 ▸ h2))
      rw [ho] at this
      exact absurd this.2 (by simp)
    · exact h2
    · rw [h1.2, ho] at h2
      exact absurd h2 (by simp)
  · cases hs

/-- **C140** Why `signal_reaches_partial` is partial: the number is not forgotten when the process has been waited for.  If
the machine has given it to another process in the meanwhile, that one is stopped. -/
theorem hits_another : (run (.init (fun _ => none)) [.spawn 7, .store, .reap, .fork 7 1, .call, .read, .send]).map (·.log) =
    some [.signal 7 (some (.other 1))] := by decide +kernel

/-- **C140** The same in the middle of a call: the sandbox was running when its number was read. -/
theorem hits_another_race : (run (.init (fun _ => none)) [.spawn 7, .store, .call, .read, .reap, .fork 7 1, .send]).map (·.log) =
    some [.signal 7 (some (.other 1))] := by decide +kernel

/-- The calls that did not know the number. -/
def lost (s : State) : Nat := s.log.count .unknown

/-- **C140** No call is lost after the number is known, also if it had begun before and has a read left. -/
theorem known_not_lost_partial {l : List Action} {s s' : State} (hr : Reach s) (hc : s.cell ≠ 0) (hk : s.killer ≠ .reading 0)
    (h : run s l = some s') : lost s' = lost s := by
  have key := run_inv (P := fun t => Reach t ∧ t.cell ≠ 0 ∧ t.killer ≠ .reading 0 ∧ lost t = lost s) ?_ (l := l) (s := s) (s' := s')
    ⟨hr, hc, hk, rfl⟩ h
  · exact key.2.2.2
  · rintro t a t' ⟨h1, h2, h3, h4⟩ hs
    have hi := (reach_inv h1).owned
    refine ⟨reach_step h1 hs, ?_⟩
    cases a <;> simp only [step] at hs <;> split at hs <;> cases hs <;> simp only [lost, List.count_cons] at h4 ⊢ <;> grind

/-- **C140** Why it is partial: a sandbox that takes more than a second to start is not stopped. -/
theorem call_lost : (run (.init (fun _ => none)) [.call, .read, .read, .read, .read, .read, .spawn 7, .read, .store]).map
    (fun s => (s.log, s.runner)) = some ([.unknown], .waiting 7) := by decide +kernel

/-- **C140** A call of `kill` makes at most six steps, whatever the others do. -/
theorem kill_bounded {others : Pid → Option Nat} {l : List Action} {s : State} (h : run (.init others) l = some s) :
    l.count .read + l.count .send ≤ 6 * l.count .call := by
  have := run_hist (P := fun t h => left t.killer + (h.count .read + h.count .send) ≤ 6 * h.count .call) ?_ (h := [])
    (s := .init others) (by simp [left, State.init]) h
  · rw [List.nil_append] at this
    omega
  · intro t h a t' hp hs
    have := left_step hs
    simp only [List.count_append, List.count_singleton]
    cases a <;> simp at this ⊢ <;> omega

/-- **C140** And it is never blocked. -/
theorem kill_free {s : State} (hk : s.killer ≠ .idle) : ∃ s', step s .read = some s' ∨ step s .send = some s' := by
  cases hs : s.killer with
  | idle => exact absurd hs hk
  | reading n => cases n <;> exact ⟨_, .inl (by simp only [step, hs]; rfl)⟩
  | sending p => exact ⟨_, .inr (by simp only [step, hs]; rfl)⟩

/-! ## Examples -/

/-- The usual case: the sandbox is stopped while it is running. -/
example : (run (.init (fun p => if p = 3 then some 0 else none)) [.call, .spawn 7, .read, .store, .fork 8 1, .read, .send, .reap]).map
    (fun s => (s.log, s.owner 7, s.runner)) = some ([.signal 7 (some .sandbox)], none, .ended true) := by decide +kernel

/-- The hypotheses of `signal_reaches_partial` hold. -/
example : ∃ s s', Reach s ∧ s.runner = .waiting 7 ∧ step s .send = some s' := by
  obtain ⟨s, hs⟩ : ∃ s, run (.init (fun _ => none)) [.spawn 7, .store, .call, .read] = some s := ⟨_, rfl⟩
  have h1 := hs
  simp only [run, step, State.init] at h1
  cases h1
  exact ⟨_, _, ⟨_, _, hs⟩, rfl, rfl⟩

/-- The hypotheses of `known_not_lost_partial` hold, also of a call that has only one read left. -/
example : ∃ s, Reach s ∧ s.cell ≠ 0 ∧ s.killer = .reading 1 := by
  obtain ⟨s, hs⟩ : ∃ s, run (.init (fun _ => none)) [.call, .read, .read, .read, .read, .spawn 7, .store] = some s := ⟨_, rfl⟩
  have h1 := hs
  simp only [run, step, State.init] at h1
  cases h1
  exact ⟨_, ⟨_, _, hs⟩, by decide, rfl⟩

/-- A sandbox that is over, whose number is free: nobody gets the signal. -/
example : (run (.init (fun _ => none)) [.spawn 7, .store, .reap, .call, .read, .send]).map (·.log) = some [.signal 7 none] := by
  decide +kernel

end TM.Kill
