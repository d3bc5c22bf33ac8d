import Verif.Sanity.Att
/-!
# Lemmas on the files of the attachments
-/
namespace TM.Disk

theorem leads_append {d : Path → Option Node} {base t q : Path} (h : Leads d base t q) : ∀ {c : Text} {r : Path},
    (q = [] ∨ d q = some .dir) → Leads d q [c] r → Leads d base (t ++ [c]) r := by
  induction h with
  | here base => intro c r _ h; exact h
  | enter h _ ih => intro c r hq h'; exact .enter h (ih hq h')
  | file h =>
    intro c r hq _
    rcases hq with hq | hq
    · simp at hq
    · rw [h] at hq; cases hq
  | follow h _ ih =>
    intro c r hq h'
    refine .follow h ?_
    have := ih hq h'
    rwa [List.append_assoc] at this

/-- What a path leads to, leads to itself. -/
theorem leads_real {d : Path → Option Node} {base t q : Path} (h : Leads d base t q) (hb : base = [] ∨ d base = some .dir)
    (hr : Leads d [] base base) : Leads d [] q q := by
  induction h with
  | here base => exact hr
  | enter h _ ih => exact ih (.inr h) (leads_append hr hb (.enter h (.here _)))
  | file h => exact leads_append hr hb (.file h)
  | follow h _ ih => exact ih (.inl rfl) (.here _)

theorem real_path {d : Disk} {p r : Path} (h : LeadsTo d p r) : LeadsTo d r r :=
  leads_real h (.inl rfl) (.here _)

/-- A directory is at `p`, maybe through links. -/
def DirAt (d : Disk) (p : Path) : Prop := ∃ r, LeadsTo d p r ∧ (r = [] ∨ d.node r = some .dir)

theorem isDir_iff {d : Disk} (hd : Roomy d) {p : Path} : d.isDir p = true ↔ DirAt d p := by
  unfold Disk.isDir DirAt
  constructor
  · intro h
    split at h
    · cases h
    · rw [Bool.or_eq_true, decide_eq_true_eq, decide_eq_true_eq] at h
      exact ⟨_, (canon_iff hd).1 ‹_›, h⟩
  · rintro ⟨r, h1, h2⟩
    simp only [(canon_iff hd).2 h1, Bool.or_eq_true, decide_eq_true_eq]
    exact h2

theorem dirAt_real {d : Disk} {p r : Path} (h : LeadsTo d p r) : DirAt d r ↔ DirAt d p := by
  constructor
  · rintro ⟨q, h1, h2⟩
    cases leads_unique (real_path h) h1
    exact ⟨_, h, h2⟩
  · rintro ⟨q, h1, h2⟩
    cases leads_unique h h1
    exact ⟨_, real_path h, h2⟩

end TM.Disk

namespace TM.Sanity.Att
open TM.Disk TM.Sanity TM.Ui

variable {d : Disk} {att : Path} {names : List Name} {inputs : Option (List (Option Path))}

theorem mem_sampleNames {name : Name} : name ∈ sampleNames names ↔ name ∈ names ∧ IsSample name := by
  unfold sampleNames IsSample
  rw [List.mem_append, List.mem_filter, List.mem_filter, wildMatch_iff, wildMatch_iff]
  constructor
  · rintro (⟨a, b⟩ | ⟨a, b⟩)
    · exact ⟨a, .inl b⟩
    · exact ⟨a, .inr b⟩
  · rintro ⟨a, b | b⟩
    · exact .inl ⟨a, b⟩
    · exact .inr ⟨a, b⟩

theorem go_spec : ∀ (l : List (Option Path)) (acc : List Path), taskSamples.go d l acc =
    if none ∈ l then [] else acc ++ l.filterMap (fun x => x.map (fun p => (d.canonicalize p).getD p))
  | [], acc => by simp [taskSamples.go]
  | none :: rest, acc => by simp [taskSamples.go]
  | some p :: rest, acc => by
    simp only [taskSamples.go, go_spec rest, List.mem_cons, List.filterMap_cons, Option.map_some]
    by_cases h : none ∈ rest
    · simp [h]
    · simp [h]

theorem mem_taskSamples (hd : Roomy d) {f : Path} : f ∈ taskSamples d inputs ↔ InTask d inputs f := by
  unfold taskSamples InTask
  cases inputs with
  | none => simp
  | some l =>
    dsimp only
    rw [go_spec]
    simp only [Option.some.injEq, List.nil_append]
    have hp : ∀ p, (d.canonicalize p).getD p = f ↔ LeadsTo d p f ∨ ((¬ ∃ r, LeadsTo d p r) ∧ f = p) := by
      intro p
      cases hc : d.canonicalize p with
      | none =>
        have h := (canon_none hd).1 hc
        simp only [Option.getD_none]
        constructor
        · rintro rfl; exact .inr ⟨fun ⟨r, hr⟩ => h r hr, rfl⟩
        · rintro (h' | ⟨-, h'⟩)
          · exact absurd h' (h f)
          · exact h'.symm
      | some r =>
        have h := (canon_iff hd).1 hc
        simp only [Option.getD_some]
        constructor
        · rintro rfl; exact .inl h
        · rintro (h' | ⟨h', -⟩)
          · exact leads_unique h h'
          · exact absurd ⟨r, h⟩ h'
    by_cases hn : none ∈ l
    · rw [if_pos hn]
      constructor
      · intro h; cases h
      · rintro ⟨_, rfl, h, -⟩; exact absurd hn h
    · rw [if_neg hn, List.mem_filterMap]
      constructor
      · rintro ⟨x, hx, he⟩
        obtain ⟨p, rfl, he⟩ := Option.map_eq_some_iff.1 he
        exact ⟨l, rfl, hn, p, hx, (hp p).1 (Option.some.inj he)⟩
      · rintro ⟨_, rfl, -, p, hx, he⟩
        exact ⟨some p, hx, by rw [Option.map_some, (hp p).2 he]⟩

theorem mem_inputs (hd : Roomy d) {f : Path} : f ∈ (sampleNames names).filterMap (sampleInput d att) ↔
    ∃ name ∈ names, IsSample name ∧ LeadsTo d (att ++ [name]) f ∧ hasInput (f.getLast?.getD []) = true := by
  rw [List.mem_filterMap]
  constructor
  · rintro ⟨name, h1, h2⟩
    unfold sampleInput at h2
    split at h2
    · cases h2
    · split at h2
      · cases h2
        exact ⟨name, (mem_sampleNames.1 h1).1, (mem_sampleNames.1 h1).2, (canon_iff hd).1 ‹_›, ‹_›⟩
      · cases h2
  · rintro ⟨name, h1, h2, h3, h4⟩
    refine ⟨name, mem_sampleNames.2 ⟨h1, h2⟩, ?_⟩
    unfold sampleInput
    rw [(canon_iff hd).2 h3]
    dsimp only
    rw [if_pos h4]

theorem mem_inAtt (hd : Roomy d) (hn : Named d att names) {f : Path} :
    f ∈ (sampleNames names).filterMap (sampleInput d att) ↔ InAtt d att names f := by
  rw [mem_inputs hd]
  constructor
  · rintro ⟨name, h1, h2, h3, h4⟩
    refine ⟨name, h1, ?_, h3⟩
    refine Classical.byContradiction fun hno => ?_
    have ho : Glob "*output*.txt".toList name := h2.resolve_left hno
    cases hl : f.getLast? with
    | none =>
      rw [hl] at h4
      exact absurd h4 (by decide +kernel)
    | some c =>
      rw [hl] at h4
      exact (hn name h1 f h3).2 hno ho c hl ((wildMatch_iff _ _).1 h4)
  · rintro ⟨name, h1, h2, h3⟩
    obtain ⟨c, h4, h5⟩ := (hn name h1 f h3).1 h2
    refine ⟨name, h1, .inl h2, h3, ?_⟩
    rw [h4]
    exact (wildMatch_iff _ _).2 h5

theorem mem_differ_att {a b : List Path} {f : Path} : (∃ l, Says.missingAtt l ∈ differ a b ∧ f ∈ l) ↔ f ∈ a ∧ f ∉ b := by
  unfold differ
  constructor
  · rintro ⟨l, h, hf⟩
    split at h
    · rcases List.mem_append.1 h with h | h <;> split at h <;> simp at h
      subst h
      simpa using hf
    · cases h
  · rintro ⟨h1, h2⟩
    have hne : a ≠ [] := fun e => by rw [e] at h1; cases h1
    have hc : ¬ (a.all (· ∈ b) ∧ b.all (· ∈ a)) := fun ⟨h, _⟩ => h2 (by simpa using List.all_eq_true.1 h f h1)
    have hf : f ∈ a.filter (· ∉ b) := by simp [h1, h2]
    refine ⟨a.filter (· ∉ b), ?_, hf⟩
    rw [if_pos ⟨hne, hc⟩]
    refine List.mem_append.2 (.inl ?_)
    rw [if_pos (fun e => by rw [e] at hf; cases hf)]
    exact List.mem_singleton.2 rfl

theorem mem_differ_task {a b : List Path} {f : Path} : (∃ l, Says.missingTask l ∈ differ a b ∧ f ∈ l) ↔
    a ≠ [] ∧ f ∈ b ∧ f ∉ a := by
  unfold differ
  constructor
  · rintro ⟨l, h, hf⟩
    split at h
    · rename_i hc
      rcases List.mem_append.1 h with h | h <;> split at h <;> simp at h
      subst h
      exact ⟨hc.1, by simpa using hf⟩
    · cases h
  · rintro ⟨hne, h1, h2⟩
    have hc : ¬ (a.all (· ∈ b) ∧ b.all (· ∈ a)) := fun ⟨_, h⟩ => h2 (by simpa using List.all_eq_true.1 h f h1)
    have hf : f ∈ b.filter (· ∉ a) := by simp [h1, h2]
    refine ⟨b.filter (· ∉ a), ?_, hf⟩
    rw [if_pos ⟨hne, hc⟩]
    refine List.mem_append.2 (.inr ?_)
    rw [if_pos (fun e => by rw [e] at hf; cases hf)]
    exact List.mem_singleton.2 rfl

/-- The kinds of the diagnostics do not mix. -/
theorem differ_kind {a b : List Path} {s : Says} (h : s ∈ differ a b) : (∃ l, s = .missingAtt l) ∨ ∃ l, s = .missingTask l := by
  unfold differ at h
  split at h
  · rcases List.mem_append.1 h with h | h <;> split at h <;> simp at h <;> subst h
    · exact .inl ⟨_, rfl⟩
    · exact .inr ⟨_, rfl⟩
  · cases h

theorem sampleSays_kind {name : Name} {s : Says} (h : s ∈ sampleSays d att name) :
    (∃ t, s = .broken name t) ∨ s = .notLink name := by
  unfold sampleSays at h
  split at h
  · split at h
    · exact .inl ⟨_, List.mem_singleton.1 h⟩
    · cases h
  · exact .inr (List.mem_singleton.1 h)

theorem mem_samples {s : Says} : s ∈ samples d att names inputs ↔
    (∃ name ∈ names, IsSample name ∧ s ∈ sampleSays d att name) ∨
    s ∈ differ (taskSamples d inputs) ((sampleNames names).filterMap (sampleInput d att)) ∨
    ((∀ name ∈ names, ¬ IsSample name) ∧ s = .noSample) := by
  unfold samples
  have h0 : sampleNames names = [] ↔ ∀ name ∈ names, ¬ IsSample name := by
    rw [List.eq_nil_iff_forall_not_mem]
    simp only [mem_sampleNames]
    exact ⟨fun h n hn hs => h n ⟨hn, hs⟩, fun h n hn => h n hn.1 hn.2⟩
  simp only [List.mem_append, List.mem_flatMap, mem_sampleNames]
  rw [or_assoc]
  refine or_congr ⟨fun ⟨n, ⟨h1, h2⟩, h3⟩ => ⟨n, h1, h2, h3⟩, fun ⟨n, h1, h2, h3⟩ => ⟨n, ⟨h1, h2⟩, h3⟩⟩ (or_congr Iff.rfl ?_)
  by_cases h : sampleNames names = []
  · rw [if_pos h, List.mem_singleton]
    exact ⟨fun hs => ⟨h0.1 h, hs⟩, fun hs => hs.2⟩
  · rw [if_neg h]
    exact ⟨nofun, fun hs => absurd (h0.2 hs.1) h⟩

end TM.Sanity.Att
