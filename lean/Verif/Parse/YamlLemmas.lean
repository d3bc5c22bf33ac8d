import Verif.Parse.Spec

/-!
# Reading task.yaml: lemmas
-/
namespace TM.Parse
open TM AMap TM.Find

theorem says_iff {d : Doc} {names : List String} {v : Val} :
    Says d names v ↔ ∃ e ∈ d.filter (fun e => decide (e.1 ∈ names.map String.toList)), e.2 = v := by
  constructor
  · rintro ⟨k, hk, hm⟩
    exact ⟨_, List.mem_filter.2 ⟨hm, by simpa using ⟨k, hk, rfl⟩⟩, rfl⟩
  · rintro ⟨e, he, rfl⟩
    obtain ⟨h1, h2⟩ := List.mem_filter.1 he
    simp only [List.mem_map, decide_eq_true_eq] at h2
    obtain ⟨k, hk, hk2⟩ := h2
    exact ⟨k, hk, by rw [hk2]; exact h1⟩

/-- What is found for a field. -/
theorem look_cases (d : Doc) (names : List String) :
    (look d (names.map String.toList) = some none ∧ Once d names ∧ Silent d names) ∨
    (∃ v, look d (names.map String.toList) = some (some v) ∧ Once d names ∧ Says d names v ∧
      ∀ v', Says d names v' → v' = v) ∨
    (look d (names.map String.toList) = none ∧ ¬ Once d names) := by
  have h := fun v => @says_iff d names v
  unfold look Once Silent
  generalize d.filter (fun e => decide (e.1 ∈ names.map String.toList)) = L at h ⊢
  match L, h with
  | [], h =>
    refine Or.inl ⟨rfl, by simp, fun v hv => ?_⟩
    rw [h] at hv
    simp at hv
  | [e], h =>
    refine Or.inr (Or.inl ⟨e.2, rfl, by simp, ?_, fun v' hv' => ?_⟩)
    · rw [h]; simp
    · rw [h] at hv'
      simp only [List.mem_singleton, exists_eq_left] at hv'
      exact hv'.symm
  | _ :: _ :: _, _ => exact Or.inr (Or.inr ⟨rfl, by simp⟩)

section
variable {α : Type} {dec : Val → Option α} {R : Val → α → Prop} (hdec : ∀ v a, dec v = some a ↔ R v a)
  {d : Doc} (names : List String)
include hdec

theorem required_iff {a : α} : required dec d (names.map String.toList) = some a ↔ Needs R d names a := by
  unfold required Needs
  rcases look_cases d names with ⟨h, h1, h2⟩ | ⟨v, h, h1, h2, h3⟩ | ⟨h, h1⟩ <;> rw [h]
  · exact ⟨fun h => (by cases h), fun ⟨_, v, hv, _⟩ => absurd hv (h2 v)⟩
  · dsimp only
    rw [hdec]
    exact ⟨fun hr => ⟨h1, v, h2, hr⟩, fun ⟨_, v', hv, hr⟩ => by rw [← h3 v' hv]; exact hr⟩
  · exact ⟨fun h => (by cases h), fun ⟨h', _⟩ => absurd h' h1⟩

theorem optional_iff (hnull : ∀ a, ¬ R .null a) {a : Option α} :
    optional dec d (names.map String.toList) = some a ↔ May R d names a := by
  unfold optional May
  rcases look_cases d names with ⟨h, h1, h2⟩ | ⟨v, h, h1, h2, h3⟩ | ⟨h, h1⟩ <;> rw [h]
  · dsimp only
    constructor
    · intro h; cases h; exact ⟨h1, Or.inl ⟨rfl, Or.inl h2⟩⟩
    · rintro ⟨_, ⟨rfl, _⟩ | ⟨v, x, hv, _⟩⟩
      · rfl
      · exact absurd hv (h2 v)
  · by_cases hv : v = .null
    · subst hv
      dsimp only
      rw [if_pos rfl]
      constructor
      · intro h; cases h; exact ⟨h1, Or.inl ⟨rfl, Or.inr h2⟩⟩
      · rintro ⟨_, ⟨rfl, _⟩ | ⟨v, x, hv, hr, _⟩⟩
        · rfl
        · rw [h3 v hv] at hr; exact absurd hr (hnull x)
    · dsimp only
      rw [if_neg hv]
      constructor
      · intro h
        obtain ⟨x, hx, rfl⟩ := Option.map_eq_some_iff.1 h
        exact ⟨h1, Or.inr ⟨v, x, h2, (hdec _ _).1 hx, rfl⟩⟩
      · rintro ⟨_, ⟨rfl, h | h⟩ | ⟨v', x, hv', hr, rfl⟩⟩
        · exact absurd h2 (h v)
        · exact absurd (h3 _ h).symm hv
        · rw [h3 v' hv'] at hr
          rw [(hdec _ _).2 hr]; rfl
  · exact ⟨fun h => (by cases h), fun ⟨h', _⟩ => absurd h' h1⟩

theorem default_iff {dflt a : α} :
    withDefault dec dflt d (names.map String.toList) = some a ↔ Else R dflt d names a := by
  unfold withDefault Else
  rcases look_cases d names with ⟨h, h1, h2⟩ | ⟨v, h, h1, h2, h3⟩ | ⟨h, h1⟩ <;> rw [h]
  · dsimp only
    constructor
    · intro h; cases h; exact ⟨h1, Or.inl ⟨rfl, h2⟩⟩
    · rintro ⟨_, ⟨rfl, _⟩ | ⟨v, hv, _⟩⟩
      · rfl
      · exact absurd hv (h2 v)
  · dsimp only
    rw [hdec]
    constructor
    · intro hr; exact ⟨h1, Or.inr ⟨v, h2, hr⟩⟩
    · rintro ⟨_, ⟨_, h⟩ | ⟨v', hv', hr⟩⟩
      · exact absurd h2 (h v)
      · rw [← h3 v' hv']; exact hr
  · exact ⟨fun h => (by cases h), fun ⟨h', _⟩ => absurd h' h1⟩

end

theorem asText_iff (v : Val) (t : Text) : asText v = some t ↔ IsText v t := by
  constructor
  · intro h; cases v <;> cases h; exact .mk _
  · rintro ⟨⟩; rfl

theorem asNat_iff (bound : Nat) (v : Val) (n : Nat) : asNat bound v = some n ↔ IsNat bound v n := by
  constructor
  · intro h
    cases v <;> simp only [asNat] at h <;> try (cases h; done)
    next i =>
    split at h
    · next hi =>
      cases h
      obtain ⟨k, rfl⟩ := Int.eq_ofNat_of_zero_le hi.1
      exact .mk k (by omega)
    · cases h
  · rintro ⟨_, h⟩
    simp only [asNat]
    rw [if_pos (by omega)]
    simp

theorem asNum_iff (v : Val) (q : Rat) : asNum v = some q ↔ IsNum v q := by
  constructor
  · intro h; cases v <;> cases h
    · exact .int _
    · exact .num _
  · rintro (⟨⟩ | ⟨⟩) <;> rfl

theorem asBool_iff (v : Val) (b : Bool) : asBool v = some b ↔ IsBool v b := by
  constructor
  · intro h; cases v <;> cases h; exact .mk _
  · rintro ⟨⟩; rfl

theorem asPairs_iff (v : Val) (l : List (Rat × Text)) : asPairs v = some l ↔ IsPairs v l := by
  constructor
  · intro h; cases v <;> cases h; exact .mk _
  · rintro ⟨⟩; rfl

theorem asAggregator_iff (v : Val) (a : Aggregator) : asAggregator v = some a ↔ IsAggregator v a := by
  constructor
  · intro h
    cases v <;> simp only [asAggregator] at h <;> try (cases h; done)
    split at h
    · next e =>
      cases h
      rcases e with rfl | rfl
      · exact .min
      · exact .groupMin
    · split at h
      · next e =>
        cases h
        rcases e with rfl | rfl
        · exact .sum
        · exact .groupSum
      · cases h
  · rintro (_ | _ | _ | _) <;> (simp only [asAggregator]; decide +kernel)

theorem null_text (t : Text) : ¬ IsText .null t := nofun
theorem null_nat (b n : Nat) : ¬ IsNat b .null n := nofun
theorem null_num (q : Rat) : ¬ IsNum .null q := nofun
theorem null_aggregator (a : Aggregator) : ¬ IsAggregator .null a := nofun
theorem null_pairs (l : List (Rat × Text)) : ¬ IsPairs .null l := nofun

/-! ## The task.yaml that is written -/

theorem once_of_keys {d : Doc} {names : List String}
    (h : ((d.map (·.1)).filter (fun k => decide (k ∈ names.map String.toList))).length ≤ 1) : Once d names := by
  unfold Once
  rw [List.filter_map, List.length_map] at h
  exact h

theorem may_of_says {α : Type} {R : Val → α → Prop} {f : α → Val} {d : Doc} {names : List String} {o : Option α}
    (h1 : Once d names) (h2 : Says d names (optVal f o)) (h3 : ∀ a, o = some a → R (f a) a) : May R d names o := by
  cases o with
  | none => exact ⟨h1, Or.inl ⟨rfl, Or.inr h2⟩⟩
  | some a => exact ⟨h1, Or.inr ⟨_, a, h2, h3 a rfl, rfl⟩⟩

/-- The numbers of the file are those its types can hold. -/
def InRange (y : Yaml) : Prop :=
  y.precision < 2 ^ 64 ∧ (∀ n, y.memory = some n → n < 2 ^ 64) ∧ (∀ n, y.difficulty = some n → n < 2 ^ 8) ∧
  (∀ n, y.syllabus = some n → n < 2 ^ 8) ∧ (∀ n, y.processes = some n → n < 2 ^ 8)

theorem isNum_num (q : Rat) : IsNum (.num q) q := .num q
theorem isAggregator_cms (a : Aggregator) : IsAggregator (.str a.cms) a := by
  cases a
  · exact .groupMin
  · exact .groupSum

theorem write_says {y : Yaml} (hr : InRange y) {ps : List (Rat × Text)} (hp : y.params = some ps) :
    YamlSays (writeYaml y) y := by
  have hkeys : (writeYaml y).map (·.1) = ["name".toList, "title".toList, "score_type".toList,
      "score_type_parameters".toList, "score_precision".toList, "primary_language".toList, "time_limit".toList,
      "memory_limit".toList, "output_only".toList, "infile".toList, "outfile".toList, "difficulty".toList,
      "syllabuslevel".toList, "num_processes".toList, "user_io".toList, "score_mode".toList, "token_mode".toList,
      "public_testcases".toList, "feedback_level".toList] := by
    unfold writeYaml
    rw [hp]
    rfl
  have hd : ∀ (i : Nat) (k : String) (v : Val), (writeYaml y)[i]? = some (k.toList, v) → ∀ names : List String,
      k ∈ names → Says (writeYaml y) names v := fun i k v h names hk => ⟨k, hk, List.mem_of_getElem? h⟩
  have hget : ∀ i : Nat, (writeYaml y)[i]? = ([("name".toList, .str y.name), ("title".toList, .str y.title),
   ("score_type".toList, optVal (fun a => .str a.cms) y.scoreType), ("score_type_parameters".toList, .pairs ps),
   ("score_precision".toList, .int y.precision), ("primary_language".toList, optVal .str y.language),
   ("time_limit".toList, optVal .num y.time), ("memory_limit".toList, optVal (fun n => .int (n : Nat)) y.memory),
   ("output_only".toList, .bool y.outputOnly), ("infile".toList, .str y.infile), ("outfile".toList, .str y.outfile),
   ("difficulty".toList, optVal (fun n => .int (n : Nat)) y.difficulty),
   ("syllabuslevel".toList, optVal (fun n => .int (n : Nat)) y.syllabus),
   ("num_processes".toList, optVal (fun n => .int (n : Nat)) y.processes),
   ("user_io".toList, optVal .str y.userIo), ("score_mode".toList, optVal .str y.scoreMode),
   ("token_mode".toList, optVal .str y.tokenMode), ("public_testcases".toList, optVal .str y.publicTestcases),
   ("feedback_level".toList, optVal .str y.feedbackLevel)] : Doc)[i]? := by
    intro i
    unfold writeYaml
    rw [hp]
    rfl
  have ho : ∀ names : List String, ((["name".toList, "title".toList, "score_type".toList,
      "score_type_parameters".toList, "score_precision".toList, "primary_language".toList, "time_limit".toList,
      "memory_limit".toList, "output_only".toList, "infile".toList, "outfile".toList, "difficulty".toList,
      "syllabuslevel".toList, "num_processes".toList, "user_io".toList, "score_mode".toList, "token_mode".toList,
      "public_testcases".toList, "feedback_level".toList]).filter
        (fun k => decide (k ∈ names.map String.toList))).length ≤ 1 → Once (writeYaml y) names := by
    intro names h
    apply once_of_keys
    rw [hkeys]
    exact h
  obtain ⟨r1, r2, r3, r4, r5⟩ := hr
  refine ⟨⟨ho _ (by decide +kernel), _, hd 0 _ _ (hget 0) _ (by simp), .mk _⟩,
    ⟨ho _ (by decide +kernel), _, hd 1 _ _ (hget 1) _ (by simp), .mk _⟩,
    may_of_says (ho _ (by decide +kernel)) (hd 2 _ _ (hget 2) _ (by simp)) (fun a _ => isAggregator_cms a),
    ⟨ho _ (by decide +kernel), Or.inr ⟨_, ps, hd 3 _ _ (hget 3) _ (by simp), .mk _, hp⟩⟩,
    ⟨ho _ (by decide +kernel), Or.inr ⟨_, hd 4 _ _ (hget 4) _ (by simp), .mk _ r1⟩⟩,
    may_of_says (ho _ (by decide +kernel)) (hd 5 _ _ (hget 5) _ (by simp)) (fun a _ => .mk a),
    may_of_says (ho _ (by decide +kernel)) (hd 6 _ _ (hget 6) _ (by simp)) (fun a _ => .num a),
    may_of_says (ho _ (by decide +kernel)) (hd 7 _ _ (hget 7) _ (by simp)) (fun a h => .mk a (r2 a h)),
    ⟨ho _ (by decide +kernel), Or.inr ⟨_, hd 8 _ _ (hget 8) _ (by simp), .mk _⟩⟩,
    ⟨ho _ (by decide +kernel), Or.inr ⟨_, hd 9 _ _ (hget 9) _ (by simp), .mk _⟩⟩,
    ⟨ho _ (by decide +kernel), Or.inr ⟨_, hd 10 _ _ (hget 10) _ (by simp), .mk _⟩⟩,
    may_of_says (ho _ (by decide +kernel)) (hd 11 _ _ (hget 11) _ (by simp)) (fun a h => .mk a (r3 a h)),
    may_of_says (ho _ (by decide +kernel)) (hd 12 _ _ (hget 12) _ (by simp)) (fun a h => .mk a (r4 a h)),
    may_of_says (ho _ (by decide +kernel)) (hd 13 _ _ (hget 13) _ (by simp)) (fun a h => .mk a (r5 a h)),
    may_of_says (ho _ (by decide +kernel)) (hd 14 _ _ (hget 14) _ (by simp)) (fun a _ => .mk a),
    may_of_says (ho _ (by decide +kernel)) (hd 15 _ _ (hget 15) _ (by simp)) (fun a _ => .mk a),
    may_of_says (ho _ (by decide +kernel)) (hd 16 _ _ (hget 16) _ (by simp)) (fun a _ => .mk a),
    may_of_says (ho _ (by decide +kernel)) (hd 17 _ _ (hget 17) _ (by simp)) (fun a _ => .mk a),
    may_of_says (ho _ (by decide +kernel)) (hd 18 _ _ (hget 18) _ (by simp)) (fun a _ => .mk a)⟩

theorem orig_inRange {d : Doc} {n : Text} {y : Yaml} (h : OrigSays d n y) : InRange y := by
  have hnat : ∀ {b : Nat} {v : Val} {k : Nat}, IsNat b v k → k < b := fun h => by cases h; assumption
  have hmay : ∀ {b : Nat} {names : List String} {o : Option Nat}, May (IsNat b) d names o → ∀ k, o = some k → k < b := by
    intro b names o h k hk
    rcases h.2 with ⟨h, _⟩ | ⟨v, x, _, hx, hx2⟩
    · rw [h] at hk; cases hk
    · rw [hx2] at hk; cases hk; exact hnat hx
  refine ⟨?_, ?_, hmay h.difficulty, hmay h.syllabus, hmay h.processes⟩
  · rcases h.precision.2 with ⟨h, _⟩ | ⟨v, _, hv⟩
    · rw [h]; exact Nat.two_pow_pos 64
    · exact hnat hv
  · obtain ⟨m, ⟨_, v, _, hm⟩, hm2⟩ := h.memory
    intro k hk
    rw [hm2] at hk
    cases hk
    exact hnat hm

end TM.Parse
