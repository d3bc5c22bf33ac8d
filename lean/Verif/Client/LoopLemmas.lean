import Verif.Client.PropsFile
namespace TM.Client
open TM.Proto

variable (canon : Path → Path) (fetch : Nat → Option (List Bytes)) (keyOf : Nat → Nat)

/-- What is handed over in a message. -/
def provided : ServerMsg Nat Unit × List Bytes → Option Delivery
  | (.provideFile uuid success, chunks) => some ⟨uuid, success, chunks.flatten⟩
  | _ => none

theorem process_delivered (c : Client) (uuid : Nat) (success : Bool) (chunks : List Bytes)
    (source : Option Path) : (c.process canon uuid success chunks source).delivered =
      c.delivered ++ [⟨uuid, success, chunks.flatten⟩] := by
  unfold Client.process; simp only; split <;> rfl

theorem process_missing (c : Client) (uuid : Nat) (success : Bool) (chunks : List Bytes)
    (source : Option Path) : (c.process canon uuid success chunks source).missing = c.missing := by
  unfold Client.process; simp only; split <;> rfl

theorem process_ended (c : Client) (uuid : Nat) (success : Bool) (chunks : List Bytes)
    (source : Option Path) : (c.process canon uuid success chunks source).ended = c.ended := by
  unfold Client.process; simp only; split <;> rfl

theorem process_sent (c : Client) (uuid : Nat) (success : Bool) (chunks : List Bytes)
    (source : Option Path) : (c.process canon uuid success chunks source).sent = c.sent := by
  unfold Client.process; simp only; split <;> rfl

theorem process_execCallbacks (c : Client) (uuid : Nat) (success : Bool) (chunks : List Bytes)
    (source : Option Path) :
    (c.process canon uuid success chunks source).execCallbacks = c.execCallbacks := by
  unfold Client.process; simp only; split <;> rfl

theorem onDone_spec (files : List (Nat × Nat × Bool)) : ∀ (c : Client) (k : Nat),
    (c.onDone canon fetch files k).2 =
      k + (files.filter (fun f => (fetch f.2.1).isNone)).length ∧
    (c.onDone canon fetch files k).1.delivered = c.delivered ++
      files.filterMap (fun f => (fetch f.2.1).map (fun ch => ⟨f.1, f.2.2, ch.flatten⟩)) ∧
    (c.onDone canon fetch files k).1.sent = c.sent ++
      (files.filter (fun f => (fetch f.2.1).isNone)).map
        (fun f => .askFile f.1 f.2.1 f.2.2) ∧
    (c.onDone canon fetch files k).1.ended = c.ended ∧
    (c.onDone canon fetch files k).1.execCallbacks = c.execCallbacks := by
  induction files with
  | nil => intro c k; simp [Client.onDone]
  | cons f files ih =>
    intro c k
    obtain ⟨uuid, key, success⟩ := f
    unfold Client.onDone
    cases hf : fetch key with
    | some chunks =>
      obtain ⟨a, b, d, e, g⟩ := ih (c.process canon uuid success chunks none) k
      simp only
      refine ⟨?_, ?_, ?_, ?_, ?_⟩
      · rw [a]; simp [hf]
      · rw [b, process_delivered]; simp [hf]
      · rw [d, process_sent]; simp [hf]
      · rw [e, process_ended]
      · rw [g, process_execCallbacks]
    | none =>
      obtain ⟨a, b, d, e, g⟩ :=
        ih { c with sent := c.sent ++ [.askFile uuid key success] } (k + 1)
      simp only
      refine ⟨?_, ?_, ?_, ?_, ?_⟩
      · rw [a]; simp [hf]; omega
      · rw [b]; simp [hf]
      · rw [d]; simp [hf]
      · rw [e]
      · rw [g]

/-- A message that is neither the end of the evaluation nor an error. -/
def Quiet : ServerMsg Nat Unit × List Bytes → Prop
  | (.done _, _) => False
  | (.error _, _) => False
  | _ => True

theorem handle_quiet (c : Client) (m : ServerMsg Nat Unit × List Bytes) (h : Quiet m) :
    (c.handle canon fetch keyOf m).ended = c.ended ∧
    (c.handle canon fetch keyOf m).delivered = c.delivered ++ (provided m).toList ∧
    (c.handle canon fetch keyOf m).missing = c.missing.map (· - (provided m).toList.length) := by
  obtain ⟨msg, chunks⟩ := m
  cases msg with
  | askFile u => simp [Client.handle, provided]
  | provideFile u s =>
    simp only [Client.handle, provided, Option.toList_some]
    rw [process_ended, process_delivered, process_missing]
    simp
  | notifyStart e w => simp only [Client.handle]; split <;> simp [provided]
  | notifyDone e r => simp only [Client.handle]; split <;> simp [provided]
  | notifySkip e => simp only [Client.handle]; split <;> simp [provided]
  | error e => exact absurd h id
  | status s => simp [Client.handle, provided]
  | done f => exact absurd h id

/-- Running on quiet messages while some files are missing. -/
theorem run_quiet (ms : List (ServerMsg Nat Unit × List Bytes)) :
    ∀ (c : Client) (k : Nat), c.ended = false → c.missing = some k → 0 < k →
    (∀ m ∈ ms, Quiet m) → (ms.filterMap provided).length ≤ k →
    (c.run canon fetch keyOf ms).delivered = c.delivered ++ ms.filterMap provided ∧
    ((c.run canon fetch keyOf ms).ended = true ↔ (ms.filterMap provided).length = k) := by
  induction ms with
  | nil =>
    intro c k he hm hk _ _
    simp only [Client.run, he, List.filterMap_nil, List.length_nil, List.append_nil]
    refine ⟨trivial, ?_, ?_⟩
    · intro h; cases h
    · intro h; omega
  | cons m ms ih =>
    intro c k he hm hk hq hl
    obtain ⟨h1, h2, h3⟩ := handle_quiet canon fetch keyOf c m (hq m (by simp))
    rw [hm] at h3
    simp only [Option.map_some] at h3
    have hlen : (List.filterMap provided (m :: ms)).length =
        (provided m).toList.length + (ms.filterMap provided).length := by
      rw [List.filterMap_cons]; cases provided m <;> simp; omega
    have hdel : List.filterMap provided (m :: ms) =
        (provided m).toList ++ ms.filterMap provided := by
      rw [List.filterMap_cons]; cases provided m <;> simp
    rw [hlen] at hl
    unfold Client.run
    rw [he]
    simp only [Bool.false_eq_true, if_false]
    by_cases hz : k - (provided m).toList.length = 0
    · -- this was the last missing file
      have hone : (provided m).toList.length ≤ 1 := by cases provided m <;> simp
      have hk1 : k = (provided m).toList.length := by omega
      have hms : ms.filterMap provided = [] := List.length_eq_zero_iff.1 (by omega)
      have hend : (c.handle canon fetch keyOf m).loopTest.ended = true := by
        simp [Client.loopTest, h3, hz]
      have hrun : ∀ l, ((c.handle canon fetch keyOf m).loopTest).run canon fetch keyOf l =
          (c.handle canon fetch keyOf m).loopTest := by
        intro l
        cases l with
        | nil => rfl
        | cons x l => simp [Client.run, hend]
      rw [hrun]
      refine ⟨?_, ?_⟩
      · rw [hdel, hms, List.append_nil]; exact h2
      · rw [hlen, hms]; simp only [hend, true_iff, List.length_nil]; omega
    · have hne : ((c.handle canon fetch keyOf m).loopTest).ended = false := by
        simp only [Client.loopTest, h3, Option.getD_some, h1, he, Bool.false_or]
        simpa using hz
      obtain ⟨a, b⟩ := ih (c.handle canon fetch keyOf m).loopTest
        (k - (provided m).toList.length) hne h3 (by omega)
        (fun m hm => hq m (List.mem_cons_of_mem _ hm)) (by omega)
      refine ⟨?_, ?_⟩
      · rw [a, hdel]
        show (c.handle canon fetch keyOf m).delivered ++ _ = _
        rw [h2, List.append_assoc]
      · rw [b, hlen]; omega

end TM.Client
