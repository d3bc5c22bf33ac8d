import Verif.Ui.Live
import Verif.Build.PropsScore
import Verif.Build.OrderSpec
/-!
# Lemmas about the messages of an evaluation
-/
namespace TM.Ui
open TM TM.Build Build.Spec

/-! ## The score managers -/

/-- The message is not the score of a testcase. -/
def notTestcase : Score.Msg → Bool
  | .testcaseScore _ _ _ => false
  | _ => true

theorem scoreSubtask_sent {m m' : Score.Manager} {st : Nat} (h : m.scoreSubtask st = some m') :
    ∃ tail, m'.sent = m.sent ++ tail ∧ ∀ x ∈ tail, notTestcase x = true := by
  unfold Score.Manager.scoreSubtask at h
  split at h
  · cases h
  · split at h
    · cases h
    · split at h
      · split at h
        · simp only at h
          split at h
          · cases h
            refine ⟨[_, _], by rw [List.append_assoc]; rfl, ?_⟩
            intro x hx
            simp only [List.mem_cons, List.not_mem_nil, or_false] at hx
            rcases hx with rfl | rfl <;> rfl
          · cases h
            refine ⟨[_], rfl, ?_⟩
            intro x hx
            rw [List.mem_singleton] at hx
            subst hx; rfl
        · cases h
      · cases h
        exact ⟨[], by simp, by simp⟩

theorem scoreMissing_sent {l : List (Nat × Option Score.Score)} : ∀ {m m' : Score.Manager},
    m.scoreMissing l = some m' → ∃ tail, m'.sent = m.sent ++ tail ∧ ∀ x ∈ tail, notTestcase x = true := by
  induction l with
  | nil => intro m m' h; cases h; exact ⟨[], by simp, by simp⟩
  | cons p l ih =>
    intro m m' h
    obtain ⟨st, s⟩ := p
    simp only [Score.Manager.scoreMissing] at h
    split at h
    · split at h
      · cases h
      · next m1 h1 =>
        obtain ⟨t1, e1, n1⟩ := scoreSubtask_sent h1
        obtain ⟨t2, e2, n2⟩ := ih h
        refine ⟨t1 ++ t2, by rw [e2, e1, List.append_assoc], ?_⟩
        intro x hx
        rcases List.mem_append.1 hx with hx | hx
        · exact n1 x hx
        · exact n2 x hx
    · exact ih h

theorem score_sent {m m' : Score.Manager} {c : Score.Call} (h : m.score c = some m') :
    ∃ tail, m'.sent = m.sent ++ .testcaseScore c.subtask c.testcase c.score :: tail ∧
      ∀ x ∈ tail, notTestcase x = true := by
  unfold Score.Manager.score at h
  obtain ⟨tail, h1, h2⟩ := scoreMissing_sent h
  exact ⟨tail, by rw [h1]; simp, h2⟩

/-! ## What one closure sends -/

/-- The score of a testcase as it is shown. -/
def ofGiven (g : Given) : Message := .testcaseScore g.subtask g.testcase g.solution g.score g.message

/-- What a closure without a sender sends, besides the scores of the subtasks and of the task. -/
def emits (x : Notice × Handler) : List Message := (toldBy x).map ofTold ++ (givenBy x).map ofGiven

/-- The messages about a testcase of a solution. -/
def isAbout (j k : Nat) (m : Message) : Bool := decide (m.about = some (j, k))

theorem about_ofScore {sol : Nat} {text : String} {x : Score.Msg} (h : notTestcase x = true) :
    (ofScore sol text x).about = none := by
  cases x with
  | testcaseScore => cases h
  | subtaskScore => rfl
  | taskScore => rfl

theorem filter_none {j k : Nat} {l : List Message} (h : ∀ m ∈ l, m.about = none) :
    l.filter (isAbout j k) = [] := by
  rw [List.filter_eq_nil_iff]
  intro m hm
  simp [isAbout, h m hm]

theorem live_score {pick : Live → List Nat} {l l' : Live} {g : Given} (h : l.score pick g = some l') :
    l'.client = l.client ∧ ∀ j k, l'.sent.filter (isAbout j k) =
      l.sent.filter (isAbout j k) ++ [ofGiven g].filter (isAbout j k) := by
  unfold Live.score at h
  split at h
  · cases h
  · next m hm =>
    split at h
    · cases h
    · next m' hm' =>
      cases h
      refine ⟨rfl, fun j k => ?_⟩
      obtain ⟨tail, h1, h2⟩ := score_sent hm'
      simp only
      rw [List.filter_append, h1, List.drop_left, List.map_cons, List.filter_cons, List.filter_cons]
      have : (tail.map (ofScore g.solution g.message)).filter (isAbout j k) = [] := by
        refine filter_none ?_
        intro m hm
        obtain ⟨x, hx, rfl⟩ := List.mem_map.1 hm
        exact about_ofScore (h2 x hx)
      rw [this]
      rfl

theorem live_scores {pick : Live → List Nat} {gs : List Given} : ∀ {l l' : Live},
    l.scores pick gs = some l' → l'.client = l.client ∧ ∀ j k, l'.sent.filter (isAbout j k) =
      l.sent.filter (isAbout j k) ++ (gs.map ofGiven).filter (isAbout j k) := by
  induction gs with
  | nil => intro l l' h; cases h; exact ⟨rfl, by simp⟩
  | cons g gs ih =>
    intro l l' h
    simp only [Live.scores] at h
    split at h
    · cases h
    · next l1 h1 =>
      obtain ⟨a1, b1⟩ := live_score h1
      obtain ⟨a2, b2⟩ := ih h
      refine ⟨a2.trans a1, fun j k => ?_⟩
      rw [b2, b1, List.append_assoc, ← List.filter_append]
      rfl

theorem live_callOne {pick : Live → List Nat} {l l' : Live} {x : Notice × Handler}
    (h : l.callOne pick x.1 x.2 = some l') : l.client.callOne x.1 x.2 = .ok l'.client ∧
      (answerBy x = none → ∀ j k, l'.sent.filter (isAbout j k) =
        l.sent.filter (isAbout j k) ++ (emits x).filter (isAbout j k)) := by
  unfold Live.callOne at h
  split at h
  · cases h
  · next c hc =>
    obtain ⟨h1, h2⟩ := live_scores h
    simp only at h1 h2
    refine ⟨by rw [h1]; exact hc, ?_⟩
    intro ha j k
    rw [h2]
    obtain ⟨-, ⟨k', a, h4, -⟩ | ⟨-, h5⟩⟩ := callOne_ok hc
    · rw [ha] at h4; cases h4
    · subst h5
      simp only [List.drop_left, emits, List.filter_append, List.append_assoc]

/-- The closures one after the other. -/
def Live.invoke (pick : Live → List Nat) (l : Live) : List (Notice × Handler) → Option Live
  | [] => some l
  | (n, h) :: r => match l.callOne pick n h with
    | none => none
    | some l => l.invoke pick r

theorem invoke_append' {pick : Live → List Nat} {a b : List (Notice × Handler)} : ∀ {l : Live},
    l.invoke pick (a ++ b) = (l.invoke pick a).bind (fun l => l.invoke pick b) := by
  induction a with
  | nil => intro l; rfl
  | cons x a ih =>
    intro l
    obtain ⟨n, h⟩ := x
    simp only [List.cons_append, Live.invoke]
    cases l.callOne pick n h with
    | none => rfl
    | some l1 => exact ih

theorem callAll_invoke' {pick : Live → List Nat} {n : Notice} : ∀ {hs : List Handler} {l : Live},
    l.callAll pick n hs = l.invoke pick (hs.map (fun h => (n, h))) := by
  intro hs
  induction hs with
  | nil => intro l; rfl
  | cons h hs ih =>
    intro l
    simp only [Live.callAll, List.map_cons, Live.invoke]
    cases l.callOne pick n h with
    | none => rfl
    | some l1 => exact ih

theorem live_notifyAll {pick : Live → List Nat} {hs : List (ExecutionUuid × Handler)} :
    ∀ {ns : List Notice} {d : List (Kind × ExecutionUuid)} {l : Live},
      l.notifyAll pick hs d ns = l.invoke pick (invocations hs (firstsFrom d ns)) := by
  intro ns
  induction ns with
  | nil => intro d l; rfl
  | cons n ns ih =>
    intro d l
    simp only [Live.notifyAll, Live.notify, firstsFrom]
    by_cases hd : (n.kind, n.exec) ∈ d
    · rw [if_pos hd, if_pos hd]
      simp only
      rw [ih]
      congr 2
      -- a kind already drained changes nothing
      have : ∀ (ns : List Notice) (d d' : List (Kind × ExecutionUuid)), (∀ x, x ∈ d ↔ x ∈ d') →
          firstsFrom d ns = firstsFrom d' ns := by
        intro ns
        induction ns with
        | nil => intro d d' _; rfl
        | cons m ns ih =>
          intro d d' h
          simp only [firstsFrom]
          by_cases hm : (m.kind, m.exec) ∈ d
          · rw [if_pos hm, if_pos ((h _).1 hm), ih d d' h]
          · rw [if_neg hm, if_neg (fun x => hm ((h _).2 x)), ih ((m.kind, m.exec) :: d) ((m.kind, m.exec) :: d') (fun x => by rw [List.mem_cons, List.mem_cons, h x])]
      refine this ns _ _ (fun x => ?_)
      simp only [List.mem_cons]
      constructor
      · rintro (rfl | h)
        · exact hd
        · exact h
      · exact .inr
    · rw [if_neg hd, if_neg hd, callAll_invoke']
      have : invocations hs (n :: firstsFrom ((n.kind, n.exec) :: d) ns) =
          ((hs.filter (fun p => p.1 = n.exec)).map (·.2)).map (fun h => (n, h)) ++
            invocations hs (firstsFrom ((n.kind, n.exec) :: d) ns) := by
        simp [invocations, List.map_map, Function.comp_def]
      rw [this, invoke_append']
      cases l.invoke pick _ with
      | none => rfl
      | some l1 => exact ih

theorem live_invoke {pick : Live → List Nat} {xs : List (Notice × Handler)} : ∀ {l l' : Live},
    l.invoke pick xs = some l' → l.client.invoke xs = .ok l'.client ∧
      ((∀ x ∈ xs, answerBy x = none) → ∀ j k, l'.sent.filter (isAbout j k) =
        l.sent.filter (isAbout j k) ++ (xs.flatMap emits).filter (isAbout j k)) := by
  induction xs with
  | nil => intro l l' h; cases h; exact ⟨rfl, by simp⟩
  | cons x xs ih =>
    intro l l' h
    obtain ⟨n, hd⟩ := x
    simp only [Live.invoke] at h
    split at h
    · cases h
    · next l1 h1 =>
      obtain ⟨a1, b1⟩ := live_callOne (x := (n, hd)) h1
      obtain ⟨a2, b2⟩ := ih h
      simp only at a1
      refine ⟨by simp only [Client.invoke, a1]; exact a2, fun hq j k => ?_⟩
      rw [b2 (fun x hx => hq x (by simp [hx])), b1 (hq _ (by simp)), List.flatMap_cons,
        List.filter_append, List.append_assoc]

/-- The client of an evaluation. -/
theorem live_client {pick : Live → List Nat} {ev : Eval} {ms : AMap Nat Score.Manager}
    {checks : List (Nat × List SolCheck)} {ns : List Notice} {l : Live}
    (h : Live.follow pick ev ms checks ns = some l) : ev.follow ns = .ok l.client := by
  unfold Live.follow at h
  rw [live_notifyAll] at h
  rw [← follow_firsts, follow_invoke (firsts_once ns)]
  exact (live_invoke h).1

end TM.Ui
