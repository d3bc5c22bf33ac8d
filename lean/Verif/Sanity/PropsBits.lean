import Verif.Sanity.BitsLemmas
/-!
# C133: the inclusion of all the standard library is reported
-/
namespace TM.Sanity.Bits
open TM TM.Text TM.Sanity

/-- The expression finds the first directive of a text, and nothing if there are none. -/
theorem find_exact (content : Text) :
    (∀ n l, find true 0 content = some (n, l) ↔
      ∃ pre d gaps, FirstIncludes content pre d gaps ∧ n = pre.length ∧ l = d.length) ∧
    (find true 0 content = none ↔ ∀ pre d gaps, ¬ Includes content pre d gaps) := by
  have none_iff : find true 0 content = none ↔ ∀ pre d gaps, ¬ Includes content pre d gaps := by
    refine ⟨find_none, fun h => ?_⟩
    cases hf : find true 0 content with
    | none => rfl
    | some p =>
      obtain ⟨pre, d, gaps, h1, -⟩ := find_some hf
      exact absurd h1.1 (h _ _ _)
  refine ⟨fun n l => ⟨find_some, ?_⟩, none_iff⟩
  rintro ⟨pre, d, gaps, h, rfl, rfl⟩
  cases hf : find true 0 content with
  | none => exact absurd h.1 (find_none hf _ _ _)
  | some p =>
    obtain ⟨n, l⟩ := p
    obtain ⟨pre', d', gaps', h', rfl, rfl⟩ := find_some hf
    have hlen : pre.length = pre'.length := Nat.le_antisymm (h.2 _ _ _ h'.1) (h'.2 _ _ _ h.1)
    obtain ⟨post, e, hd, -, hp⟩ := h.1
    obtain ⟨post', e', hd', -, hp'⟩ := h'.1
    have e1 : pre ++ (d ++ post) = pre' ++ (d' ++ post') := by rw [← List.append_assoc, ← e, e', List.append_assoc]
    have e2 := (List.append_inj e1 hlen).2
    have m1 := matchLen_iff.2 ⟨d, gaps, post, rfl, hd, hp, rfl⟩
    have m2 := matchLen_iff.2 ⟨d', gaps', post', rfl, hd', hp', rfl⟩
    rw [e2, m2] at m1
    rw [hlen, Option.some.inj m1]

/-- **C133** In the directory of the task, if there is no new line inside the directives, the check succeeds; the warning
shows the first directive of every file that has one, and nothing else, in the order of the files. -/
theorem reported_partial (disk : Path → Option Text) (task : Path) (files : List Path)
    (hone : ∀ file ∈ files, ∀ content, disk (task ++ file) = some content →
      ∀ pre d gaps, FirstIncludes content pre d gaps → '\n' ∉ gaps) :
    ∃ spans, check disk task files = .ok spans ∧
      (warns spans = true ↔ ∃ file ∈ files, ∃ content pre d gaps, disk (task ++ file) = some content ∧ Includes content pre d gaps) ∧
      (spans.map (·.1)).Sublist files ∧
      (∀ file, file ∈ spans.map (·.1) ↔
        file ∈ files ∧ ∃ content pre d gaps, disk (task ++ file) = some content ∧ Includes content pre d gaps) ∧
      ∀ file span, (file, span) ∈ spans → ∃ content pre d gaps, disk (task ++ file) = some content ∧
        FirstIncludes content pre d gaps ∧ span.fileOffset = pre.length ∧ span.asStr = d ∧ span.lineOffset = 0 ∧
        span.line = d ∧ span.lineNumber = 1 + pre.count '\n' := by
  have key : ∃ spans, check disk task files = .ok spans ∧ (spans.map (·.1)).Sublist files ∧
      (∀ file, file ∈ spans.map (·.1) ↔
        file ∈ files ∧ ∃ content pre d gaps, disk (task ++ file) = some content ∧ Includes content pre d gaps) ∧
      ∀ file span, (file, span) ∈ spans → ∃ content pre d gaps, disk (task ++ file) = some content ∧
        FirstIncludes content pre d gaps ∧ span.fileOffset = pre.length ∧ span.asStr = d ∧ span.lineOffset = 0 ∧
        span.line = d ∧ span.lineNumber = 1 + pre.count '\n' := by
    induction files with
    | nil => exact ⟨[], rfl, .slnil, by simp, by simp⟩
    | cons f files ih =>
      obtain ⟨spans, h1, h2, h3, h4⟩ := ih (fun file hf => hone file (List.mem_cons_of_mem _ hf))
      have skip : (∀ content pre d gaps, disk (task ++ f) = some content → ¬ Includes content pre d gaps) →
          check disk task (f :: files) = check disk task files → ∃ spans, check disk task (f :: files) = .ok spans ∧
            (spans.map (·.1)).Sublist (f :: files) ∧
            (∀ file, file ∈ spans.map (·.1) ↔ file ∈ f :: files ∧
              ∃ content pre d gaps, disk (task ++ file) = some content ∧ Includes content pre d gaps) ∧
            ∀ file span, (file, span) ∈ spans → ∃ content pre d gaps, disk (task ++ file) = some content ∧
              FirstIncludes content pre d gaps ∧ span.fileOffset = pre.length ∧ span.asStr = d ∧ span.lineOffset = 0 ∧
              span.line = d ∧ span.lineNumber = 1 + pre.count '\n' := by
        intro hno he
        refine ⟨spans, he.trans h1, h2.cons _, fun file => ?_, h4⟩
        rw [h3 file, List.mem_cons]
        refine ⟨fun ⟨a, b⟩ => ⟨.inr a, b⟩, ?_⟩
        rintro ⟨rfl | a, b⟩
        · obtain ⟨content, pre, d, gaps, q1, q2⟩ := b
          exact absurd q2 (hno _ _ _ _ q1)
        · exact ⟨a, b⟩
      cases hd : disk (task ++ f) with
      | none => exact skip (fun _ _ _ _ h => by rw [hd] at h; cases h) (by simp only [check, hd])
      | some content =>
        cases hf : find true 0 content with
        | none =>
          refine skip (fun c pre d gaps h => ?_) (by simp only [check, hd, hf])
          rw [hd] at h; cases h
          exact find_none hf _ _ _
        | some p =>
          obtain ⟨n, l⟩ := p
          obtain ⟨pre, d, gaps, g1, rfl, rfl⟩ := find_some hf
          have hg := hone f List.mem_cons_self content hd pre d gaps g1
          obtain ⟨post, e, hdir, hstart, hpost⟩ := g1.1
          have hdn := directive_noNl hdir hg
          have hpos := List.length_pos_iff.2 (directive_ne hdir)
          have hdrop : content.drop pre.length = d ++ post := by
            rw [e, List.append_assoc, List.drop_left]
          have htake : (content.drop pre.length).take d.length = d := by rw [hdrop, List.take_left]
          have hlen : content.length = pre.length + d.length + post.length := by
            rw [e, List.length_append, List.length_append]
          obtain ⟨span, hspan⟩ := (span_ok_iff content pre.length d.length).2 ⟨by omega, by omega, by
            intro h
            rw [e, List.append_assoc, List.getElem?_append_right (Nat.le_refl _), Nat.sub_self,
              List.getElem?_append_left hpos, List.getElem?_eq_getElem hpos] at h
            exact hdn (Option.some.inj h ▸ List.getElem_mem hpos), by rw [htake]; exact hdn⟩
          obtain ⟨pre', post', k1, k2, k3, k4, k5, k6, k7, k8, k9⟩ := span_correct hspan
          refine ⟨(f, span) :: spans, by simp only [check, hd, hf, hspan, h1], h2.cons_cons _, fun file => ?_, ?_⟩
          · rw [List.map_cons, List.mem_cons, h3 file, List.mem_cons]
            constructor
            · rintro (rfl | ⟨a, b⟩)
              · exact ⟨.inl rfl, content, pre, d, gaps, hd, g1.1⟩
              · exact ⟨.inr a, b⟩
            · rintro ⟨rfl | a, b⟩
              · exact .inl rfl
              · exact .inr ⟨a, b⟩
          · intro file s hm
            rcases List.mem_cons.1 hm with h | h
            · cases h
              -- the line of the span is the directive
              have e1 : pre ++ (d ++ post) = pre' ++ (span.line ++ post') := by
                rw [← List.append_assoc, ← e, k1, List.append_assoc]
              have hpp : pre' = pre := by
                refine Classical.byContradiction fun hne => ?_
                have hlt : pre'.length < pre.length := by
                  refine Nat.lt_of_le_of_ne (by omega) fun h => hne ?_
                  exact (List.append_inj e1 h.symm).1.symm
                obtain ⟨q, hq⟩ : ∃ q, pre = q ++ ['\n'] := by
                  rcases hstart with rfl | h
                  · simp at hlt
                  · exact h
                have e2 := congrArg (fun t => t[pre.length - 1]?) e1
                have hql : pre.length = q.length + 1 := by rw [hq, List.length_append, List.length_singleton]
                have e3 : (pre ++ (d ++ post))[pre.length - 1]? = some '\n' := by
                  rw [List.getElem?_append_left (by omega), hql, Nat.add_sub_cancel, hq,
                    List.getElem?_append_right (Nat.le_refl _), Nat.sub_self]
                  rfl
                rw [e3, List.getElem?_append_right (by omega)] at e2
                have hll : pre.length - 1 - pre'.length < span.line.length := by
                  have e5 := congrArg List.length k8
                  unfold CodeSpan.asStr at e5 k9
                  rw [List.length_take, List.length_drop] at k9
                  omega
                rw [List.getElem?_append_left hll, List.getElem?_eq_getElem hll] at e2
                exact k2 (Option.some.inj e2 ▸ List.getElem_mem hll)
              subst hpp
              have e2 := List.append_cancel_left e1
              have hline : span.line = d := by
                have t1 := takeLine_eq k2 k4
                have t2 := takeLine_eq hdn hpost
                rw [← e2, t2] at t1
                exact t1.symm
              exact ⟨content, pre', d, gaps, hd, g1, k7, by rw [k8, htake], by omega, hline, k6⟩
            · exact h4 file s h
  obtain ⟨spans, h1, h2, h3, h4⟩ := key
  refine ⟨spans, h1, ?_, h2, h3, h4⟩
  constructor
  · intro hw
    cases spans with
    | nil => cases hw
    | cons p spans => exact ⟨p.1, (h3 p.1).1 (by simp)⟩
  · rintro ⟨file, a, b⟩
    have := (h3 file).2 ⟨a, b⟩
    cases spans with
    | nil => simp at this
    | cons p spans => rfl

/-! ## Examples -/

namespace Sample

def task : Path := ["home".toList, "task".toList]
def sol : Path := ["sol".toList, "a.cpp".toList]
def other : Path := ["sol".toList, "b.cpp".toList]

def disk : Path → Option Text := fun p =>
  if p = task ++ sol then some "// hi\n#include <bits/stdc++.h> // all\nint main() {}\n".toList
  else if p = task ++ other then some "#include <vector>\n // #include <bits/stdc++.h>\n".toList
  else none

/-- One file has the directive, in its second line. -/
example : (check disk task [other, sol]).toOption =
    some [(sol, ⟨2, 6, 0, 31, "#include <bits/stdc++.h> // all".toList⟩)] := by decide +kernel

/-- A file with the parts of the directive on two lines. -/
def twoLines : Path → Option Text := fun p => if p = task ++ sol then some "#\ninclude <bits/stdc++.h>\n".toList else none

end Sample

/-- **C133** ... from another directory the files are not read and nothing is reported. -/
theorem other_directory : ∃ (disk : Path → Option Text) (task cwd : Path) (files : List Path) (spans : List (Path × CodeSpan)),
    (∃ file ∈ files, ∃ content pre d gaps, disk (task ++ file) = some content ∧ Includes content pre d gaps ∧ '\n' ∉ gaps) ∧
    (∃ spans', check disk task files = .ok spans' ∧ warns spans' = true) ∧
    check disk cwd files = .ok spans ∧ warns spans = false := by
  refine ⟨Sample.disk, Sample.task, ["home".toList], [Sample.sol], [], ⟨Sample.sol, by simp,
    "// hi\n#include <bits/stdc++.h> // all\nint main() {}\n".toList, "// hi\n".toList, "#include <bits/stdc++.h> // all".toList,
    " ".toList, by decide +kernel, ⟨"\nint main() {}\n".toList, by decide +kernel, ?_, .inr ⟨"// hi".toList, by decide +kernel⟩,
      .inr ⟨"int main() {}\n".toList, by decide +kernel⟩⟩, by decide +kernel⟩, ?_, ?_, rfl⟩
  · refine ⟨[], " ".toList, " // all".toList, '<', '>', nofun, ?_, rfl, .inl rfl, .inl rfl, by decide +kernel, by decide +kernel⟩
    unfold Blank
    decide +kernel
  · exact ⟨_, rfl, rfl⟩
  · rfl

/-- **C133** ... a directive with a new line inside, even in a comment, makes the check fail: nothing of what it found is
shown. -/
theorem split_directive : ∃ (disk : Path → Option Text) (task : Path) (files : List Path),
    check disk task files = .error .multiline :=
  ⟨Sample.twoLines, Sample.task, [Sample.sol], rfl⟩

end TM.Sanity.Bits
