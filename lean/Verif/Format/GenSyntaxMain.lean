import Verif.Format.GenSyntax

/-!
# The parser of `gen/GEN` and its syntax: lines and files
-/
namespace TM.Format

/-! ## Lines -/

theorem tailStop {t r : Text} (ht : Tail t) (hr : Eol r) : Stop isWs (t ++ r) ∧ Stop isWord (t ++ r) ∧
    Stop isDigit (t ++ r) := tail_stop ht hr

/-- Nothing that starts with `#`. -/
theorem hash_none {s : Text} (h : s.head? ≠ some '#') : subtask? s = none ∧ subtaskName? s = none ∧
    subtaskDep? s = none ∧ copy? s = none ∧ comment? s = none ∧ lit? ['#'] s = none := by
  cases s with
  | nil => exact ⟨rfl, rfl, rfl, rfl, rfl, rfl⟩
  | cons c s =>
    have hc : '#' ≠ c := by rintro rfl; exact h rfl
    refine ⟨?_, ?_, ?_, ?_, ?_, ?_⟩ <;>
      simp [subtask?, subtaskName?, subtaskDep?, copy?, comment?, lit?, hc]

theorem line_complete {s r : Text} {l : GenLine} (h : GenLineIs s l) (hr : Eol r) :
    line (s ++ r) = (l, r) := by
  unfold line
  cases h with
  | @subtask a n b t ha hn hb ht =>
    have hs := tail_stop ht hr
    have e : subtask? ("#ST:".toList ++ (a ++ (n ++ (b ++ t))) ++ r) = some (.subtask n, t ++ r) := by
      unfold subtask?
      rw [List.append_assoc, lit?_app]
      simp only [List.append_assoc]
      rw [skipWs_app ha (digits_stop hn), number?_app hn (blank_stop hb hs.2).2]
      simp only
      rw [skipWs_app hb hs.1]
    simp only [lineBody, e]
    rw [risky_app ht hr]
  | @subtaskName a n b t ha hn hb ht =>
    have hs := tail_stop ht hr
    have e0 : subtask? ("#STNAME:".toList ++ (a ++ (n ++ (b ++ t))) ++ r) = none := by
      simp [subtask?, lit?]
    have e : subtaskName? ("#STNAME:".toList ++ (a ++ (n ++ (b ++ t))) ++ r) =
        some (.subtaskName n, t ++ r) := by
      unfold subtaskName?
      rw [List.append_assoc, lit?_app]
      simp only [List.append_assoc]
      rw [skipWs_app ha (word_stop hn), word?_app hn (blank_stop hb hs.2).1]
      simp only
      rw [skipWs_app hb hs.1]
    simp only [lineBody, e0, e]
    rw [risky_app ht hr]
  | @noDep b t hb ht =>
    have hs := tail_stop ht hr
    have e0 : subtask? ("#STDEP:".toList ++ (b ++ t) ++ r) = none := by simp [subtask?, lit?]
    have e1 : subtaskName? ("#STDEP:".toList ++ (b ++ t) ++ r) = none := by simp [subtaskName?, lit?]
    have e : subtaskDep? ("#STDEP:".toList ++ (b ++ t) ++ r) = some (.subtaskDep [], t ++ r) := by
      unfold subtaskDep?
      rw [List.append_assoc, lit?_app]
      simp only [List.append_assoc]
      have := depWords_app .nil hb hs (b ++ (t ++ r)).length (by simp)
      rw [List.nil_append] at this
      rw [this]
      simp only
      rw [skipWs_app hb hs.1]
    simp only [lineBody, e0, e1, e]
    rw [risky_app ht hr]
  | @subtaskDep a w m b t ws ha hw hws hb ht =>
    have hs := tail_stop ht hr
    have e0 : subtask? ("#STDEP:".toList ++ (a ++ (w ++ (m ++ (b ++ t)))) ++ r) = none := by
      simp [subtask?, lit?]
    have e1 : subtaskName? ("#STDEP:".toList ++ (a ++ (w ++ (m ++ (b ++ t)))) ++ r) = none := by
      simp [subtaskName?, lit?]
    have e : subtaskDep? ("#STDEP:".toList ++ (a ++ (w ++ (m ++ (b ++ t)))) ++ r) =
        some (.subtaskDep (w :: ws), t ++ r) := by
      unfold subtaskDep?
      rw [List.append_assoc, lit?_app]
      simp only [List.append_assoc]
      have hl : 0 < w.length := by
        cases w with
        | nil => exact absurd rfl hw.1
        | cons _ _ => simp
      obtain ⟨n, hn⟩ : ∃ n, (a ++ (w ++ (m ++ (b ++ (t ++ r))))).length = n + 1 :=
        ⟨(a ++ (w ++ (m ++ (b ++ (t ++ r))))).length - 1, by simp only [List.length_append]; omega⟩
      rw [hn]
      simp only [depWords]
      rw [skipWs_app ha (word_stop hw), word?_app hw (words_stop hws (blank_stop hb hs.2)).1]
      simp only
      rw [depWords_app hws hb hs n (by simp only [List.length_append] at hn; omega)]
      simp only
      rw [skipWs_app hb hs.1]
    simp only [lineBody, e0, e1, e]
    rw [risky_app ht hr]
  | @copy a n b t ha hn hb ht =>
    have hs := tail_stop ht hr
    have e0 : subtask? ("#COPY:".toList ++ (a ++ (n ++ (b ++ t))) ++ r) = none := by
      simp [subtask?, lit?]
    have e1 : subtaskName? ("#COPY:".toList ++ (a ++ (n ++ (b ++ t))) ++ r) = none := by
      simp [subtaskName?, lit?]
    have e2 : subtaskDep? ("#COPY:".toList ++ (a ++ (n ++ (b ++ t))) ++ r) = none := by
      simp [subtaskDep?, lit?]
    have e : copy? ("#COPY:".toList ++ (a ++ (n ++ (b ++ t))) ++ r) = some (.copy n, t ++ r) := by
      unfold copy?
      rw [List.append_assoc, lit?_app]
      simp only [List.append_assoc]
      rw [skipWs_app ha (word_stop hn), word?_app hn (blank_stop hb hs.2).1]
      simp only
      rw [skipWs_app hb hs.1]
    simp only [lineBody, e0, e1, e2, e]
    rw [risky_app ht hr]
  | @comment u hu hc =>
    have hne : ∀ c v, u ++ r = c :: v → c ≠ 'S' ∧ c ≠ 'C' := by
      intro c v he
      cases u with
      | nil =>
        rw [List.nil_append] at he
        rcases hr with rfl | ⟨c', v', rfl, hn⟩
        · cases he
        · cases he
          have : c = '\n' ∨ c = '\r' := by simpa [isNl] using hn
          rcases this with rfl | rfl <;> decide
      | cons x u =>
        cases he
        rcases hc c rfl with rfl | rfl | rfl <;> decide
    have e0 : subtask? ('#' :: u ++ r) = none ∧ subtaskName? ('#' :: u ++ r) = none ∧
        subtaskDep? ('#' :: u ++ r) = none ∧ copy? ('#' :: u ++ r) = none := by
      rw [List.cons_append]
      cases hv : u ++ r with
      | nil => exact ⟨rfl, rfl, rfl, rfl⟩
      | cons c v =>
        obtain ⟨h1, h2⟩ := hne c v hv
        refine ⟨?_, ?_, ?_, ?_⟩ <;>
          simp [subtask?, subtaskName?, subtaskDep?, copy?, lit?, h1.symm, h2.symm]
    have hl : lit? ['#'] ('#' :: u ++ r) = some (u ++ r) := by simp [lit?]
    simp only [lineBody, e0, comment?, hl]
    cases u with
    | nil =>
      rw [List.nil_append, spaces?_none (eol_stop hr).1]
      simp only
      exact congrArg _ (risky_app (t := []) (.inl rfl) hr)
    | cons x u =>
      have hstop := (eol_stop hr).2.2.2
      by_cases hx : isWs x = true
      · have : spaces? (x :: u ++ r) = some (skipWs (x :: u ++ r)) := by simp [spaces?, hx]
        rw [this]
        simp only
        have hsk : skipLine (skipWs (x :: u ++ r)) = r := by
          have hd : skipWs (x :: u ++ r) = (x :: u).dropWhile isWs ++ r := by
            unfold skipWs
            generalize x :: u = y
            induction y with
            | nil =>
              rw [List.nil_append]
              have := dropWhile_app (a := []) (by simp) (eol_stop hr).1
              simpa using this
            | cons z y ih =>
              rw [List.cons_append, List.dropWhile_cons, List.dropWhile_cons]
              cases isWs z with
              | true => simpa using ih
              | false => rfl
          rw [hd]
          unfold skipLine
          apply dropWhile_app _ hstop
          intro c hcm
          exact oneLine_iff.1 hu c (List.dropWhile_sublist (p := isWs) |>.subset hcm)
        rw [hsk]
        exact congrArg _ (risky_app (t := []) (.inl rfl) hr)
      · have hx' : isWs x = false := by simpa using hx
        have : spaces? (x :: u ++ r) = none := by simp [spaces?, hx']
        rw [this]
        simp only
        have hxe : x = '#' := by
          rcases hc x rfl with rfl | rfl | rfl
          · exact absurd rfl hx
          · exact absurd rfl hx
          · rfl
        subst hxe
        exact congrArg _ (risky_app (t := '#' :: u) (.inr ⟨u, rfl, fun c hcm => hu c (by simp [hcm])⟩) hr)
  | @command a w m b t ws ha hw hws hb ht =>
    have hs := tail_stop ht hr
    have hh : (a ++ (w ++ (m ++ (b ++ t))) ++ r).head? ≠ some '#' := by
      cases a with
      | nil =>
        cases w with
        | nil => exact absurd rfl hw.1
        | cons c w => simpa using (hw.2 c (by simp)).2.2.1
      | cons c a =>
        simp only [List.cons_append, List.head?_cons, ne_eq, Option.some.injEq]
        rcases ha c (by simp) with rfl | rfl <;> decide
    obtain ⟨h1, h2, h3, h4, h5, h6⟩ := hash_none hh
    have e : command? (a ++ (w ++ (m ++ (b ++ t))) ++ r) = some (.command (w :: ws), t ++ r) := by
      unfold command?
      rw [h6]
      simp only [List.append_assoc]
      rw [skipWs_app ha (word_stop hw), word?_app hw (words_stop hws (blank_stop hb hs.2)).1]
      simp only
      rw [cmdWords_app hws hb hs _ (by simp only [List.length_append]; omega)]
      simp only
      rw [skipWs_app hb hs.1]
    simp only [lineBody, h1, h2, h3, h4, h5, e]
    rw [risky_app ht hr]
  | @empty a t ha ht hat =>
    have hs := tail_stop ht hr
    have hh : (a ++ t ++ r).head? ≠ some '#' := by
      cases a with
      | nil =>
        rw [hat rfl]
        rcases hr with rfl | ⟨c, u, rfl, hc⟩
        · simp
        · simp only [List.nil_append, List.head?_cons, ne_eq, Option.some.injEq]
          rintro rfl
          cases hc
      | cons c a =>
        simp only [List.cons_append, List.head?_cons, ne_eq, Option.some.injEq]
        rcases ha c (by simp) with rfl | rfl <;> decide
    obtain ⟨h1, h2, h3, h4, h5, h6⟩ := hash_none hh
    have e : command? (a ++ t ++ r) = none := by
      unfold command?
      rw [h6]
      simp only [List.append_assoc]
      rw [skipWs_app ha hs.1, word?_none hs.2.1]
    simp only [lineBody, h1, h2, h3, h4, h5, e]
    rw [List.append_assoc, skipWs_app ha hs.1, risky_app ht hr]

theorem line_sound {s r : Text} {l : GenLine} (h : line s = (l, r)) (hr : Eol r) :
    ∃ s', s = s' ++ r ∧ GenLineIs s' l := by
  unfold line at h
  cases hb : lineBody s with
  | mk l' r1 =>
    rw [hb] at h
    simp only [Prod.mk.injEq] at h
    obtain ⟨rfl, h⟩ := h
    obtain ⟨t, ht, htail⟩ := risky_some h
    subst ht
    unfold lineBody at hb
    split at hb
    · rename_i x hx
      subst hb
      unfold subtask? at hx
      split at hx
      · cases hx
      · rename_i u hu
        split at hx
        · cases hx
        · rename_i n r' hn
          simp only [Option.some.injEq, Prod.mk.injEq] at hx
          obtain ⟨rfl, hx⟩ := hx
          have e1 := lit?_some hu
          obtain ⟨a, e2, ha⟩ := skipWs_some u
          obtain ⟨e3, hd, _⟩ := number?_some hn
          obtain ⟨b, e4, hbk⟩ := skipWs_some r'
          rw [hx] at e4
          refine ⟨"#ST:".toList ++ (a ++ (n ++ (b ++ t))), ?_, .subtask ha hd hbk htail⟩
          rw [e1, e2, e3, e4]; simp
    split at hb
    · rename_i x hx
      subst hb
      unfold subtaskName? at hx
      split at hx
      · cases hx
      · rename_i u hu
        split at hx
        · cases hx
        · rename_i n r' hn
          simp only [Option.some.injEq, Prod.mk.injEq] at hx
          obtain ⟨rfl, hx⟩ := hx
          have e1 := lit?_some hu
          obtain ⟨a, e2, ha⟩ := skipWs_some u
          obtain ⟨e3, hd, _⟩ := word?_some hn
          obtain ⟨b, e4, hbk⟩ := skipWs_some r'
          rw [hx] at e4
          refine ⟨"#STNAME:".toList ++ (a ++ (n ++ (b ++ t))), ?_, .subtaskName ha hd hbk htail⟩
          rw [e1, e2, e3, e4]; simp
    split at hb
    · rename_i x hx
      subst hb
      unfold subtaskDep? at hx
      split at hx
      · cases hx
      · rename_i u hu
        cases hd : depWords u.length u with
        | mk ws r' =>
          rw [hd] at hx
          simp only [Option.some.injEq, Prod.mk.injEq] at hx
          obtain ⟨rfl, hx⟩ := hx
          have e1 := lit?_some hu
          obtain ⟨b, e4, hbk⟩ := skipWs_some r'
          rw [hx] at e4
          rcases depWords_some _ hd with ⟨rfl, e5⟩ | ⟨a, w, ws', m, rfl, e5, ha, hw, hm⟩
          · refine ⟨"#STDEP:".toList ++ (b ++ t), ?_, .noDep hbk htail⟩
            rw [e1, e5, e4]; simp
          · refine ⟨"#STDEP:".toList ++ (a ++ (w ++ (m ++ (b ++ t)))), ?_, .subtaskDep ha hw hm hbk htail⟩
            rw [e1, e5, e4]; simp
    split at hb
    · rename_i x hx
      subst hb
      unfold copy? at hx
      split at hx
      · cases hx
      · rename_i u hu
        split at hx
        · cases hx
        · rename_i n r' hn
          simp only [Option.some.injEq, Prod.mk.injEq] at hx
          obtain ⟨rfl, hx⟩ := hx
          have e1 := lit?_some hu
          obtain ⟨a, e2, ha⟩ := skipWs_some u
          obtain ⟨e3, hd, _⟩ := word?_some hn
          obtain ⟨b, e4, hbk⟩ := skipWs_some r'
          rw [hx] at e4
          refine ⟨"#COPY:".toList ++ (a ++ (n ++ (b ++ t))), ?_, .copy ha hd hbk htail⟩
          rw [e1, e2, e3, e4]; simp
    split at hb
    · rename_i x hx
      simp only [Prod.mk.injEq] at hb
      obtain ⟨rfl, rfl⟩ := hb
      unfold comment? at hx
      split at hx
      · cases hx
      · rename_i u hu
        have e1 := lit?_some hu
        rw [List.singleton_append] at e1
        split at hx
        · rename_i v hv
          simp only [Option.some.injEq] at hx
          obtain ⟨a, e2, ha, hne⟩ := spaces?_some hv
          have e3 : v = v.takeWhile (fun c => !isNl c) ++ (t ++ r) := by
            have := (List.takeWhile_append_dropWhile (p := fun c => !isNl c) (l := v)).symm
            unfold skipLine at hx
            rw [hx] at this
            exact this
          have ht0 : t = [] := by
            rcases htail with h | ⟨w, h, _⟩
            · exact h
            · exfalso
              have := dropWhile_stop (fun c => !isNl c) v '#' (w ++ r) (by
                unfold skipLine at hx; rw [hx, h]; rfl)
              revert this; decide
          subst ht0
          refine ⟨'#' :: (a ++ v.takeWhile (fun c => !isNl c)), ?_, .comment ?_ ?_⟩
          · rw [e1, e2]
            simp only [List.nil_append] at e3
            have : a ++ v = a ++ (v.takeWhile (fun c => !isNl c) ++ r) := congrArg _ e3
            rw [this]; simp
          · intro c hc
            rcases List.mem_append.1 hc with hc | hc
            · rcases ha c hc with rfl | rfl <;> decide
            · exact oneLine_iff.2 takeWhile_all' c hc
          · intro c hc
            cases a with
            | nil => exact absurd rfl hne
            | cons x a =>
              simp only [List.cons_append, List.head?_cons, Option.some.injEq] at hc
              subst hc
              rcases ha x (by simp) with h | h
              · exact .inl h
              · exact .inr (.inl h)
        · simp only [Option.some.injEq] at hx
          subst hx
          refine ⟨'#' :: t, e1, .comment ?_ ?_⟩
          · rcases htail with rfl | ⟨w, rfl, hw⟩
            · intro c hc; cases hc
            · intro c hc
              rcases List.mem_cons.1 hc with rfl | hc
              · decide
              · exact hw c hc
          · intro c hc
            rcases htail with rfl | ⟨w, rfl, hw⟩
            · cases hc
            · cases hc; exact .inr (.inr rfl)
    rename_i hcm
    have hlit : lit? ['#'] s = none := by
      cases hl : lit? ['#'] s with
      | none => rfl
      | some u =>
        exfalso
        unfold comment? at hcm
        rw [hl] at hcm
        simp only at hcm
        split at hcm <;> cases hcm
    split at hb
    · rename_i x hx
      subst hb
      unfold command? at hx
      rw [hlit] at hx
      simp only at hx
      split at hx
      · cases hx
      · rename_i w r' hw
        cases hd : cmdWords r'.length r' with
        | mk ws r2 =>
          rw [hd] at hx
          simp only [Option.some.injEq, Prod.mk.injEq] at hx
          obtain ⟨rfl, hx⟩ := hx
          obtain ⟨a, e2, ha⟩ := skipWs_some s
          obtain ⟨e3, hwd, _⟩ := word?_some hw
          obtain ⟨m, e5, hm⟩ := cmdWords_some _ hd
          obtain ⟨b, e4, hbk⟩ := skipWs_some r2
          rw [hx] at e4
          refine ⟨a ++ (w ++ (m ++ (b ++ t))), ?_, .command ha hwd hm hbk htail⟩
          rw [e2, e3, e5, e4]; simp
    · rename_i hx
      simp only [Prod.mk.injEq] at hb
      obtain ⟨rfl, hb⟩ := hb
      obtain ⟨a, e2, ha⟩ := skipWs_some s
      rw [hb] at e2
      refine ⟨a ++ t, by rw [e2]; simp, .empty ha htail ?_⟩
      rintro rfl
      rcases htail with rfl | ⟨w, rfl, _⟩
      · rfl
      · rw [e2] at hlit
        simp [lit?] at hlit

/-! ## Files -/

theorem newline?_some {r r' : Text} (h : newline? r = some r') : Eol r ∧ ∃ nl, r = nl ++ r' ∧
    (nl = ['\n'] ∨ nl = ['\r', '\n'] ∨ (nl = ['\r'] ∧ r'.head? ≠ some '\n')) := by
  unfold newline? at h
  split at h
  · cases h; exact ⟨.inr ⟨_, _, rfl, rfl⟩, _, rfl, .inl rfl⟩
  · cases h; exact ⟨.inr ⟨_, _, rfl, rfl⟩, ['\r', '\n'], rfl, .inr (.inl rfl)⟩
  · rename_i s hne
    cases h
    refine ⟨.inr ⟨_, _, rfl, rfl⟩, ['\r'], rfl, .inr (.inr ⟨rfl, ?_⟩)⟩
    intro hh
    cases r' with
    | nil => cases hh
    | cons c u => cases hh; exact hne u rfl
  · cases h

theorem newline?_app {nl rest : Text}
    (h : nl = ['\n'] ∨ nl = ['\r', '\n'] ∨ (nl = ['\r'] ∧ rest.head? ≠ some '\n')) :
    newline? (nl ++ rest) = some rest ∧ Eol (nl ++ rest) ∧ 0 < nl.length := by
  rcases h with rfl | rfl | ⟨rfl, hne⟩
  · exact ⟨rfl, .inr ⟨_, _, rfl, rfl⟩, by simp⟩
  · exact ⟨rfl, .inr ⟨_, _, rfl, rfl⟩, by simp⟩
  · refine ⟨?_, .inr ⟨_, _, rfl, rfl⟩, by simp⟩
    rw [List.singleton_append]
    unfold newline?
    split
    · rename_i hs; cases hs
    · rename_i hs; cases hs; exact absurd rfl hne
    · rename_i hs; cases hs; rfl
    · rename_i h1 h2 h3; exact absurd rfl (h3 rest)

theorem file_complete {s : Text} {ls : List GenLine} (h : FileIs GenLineIs s ls) :
    ∀ n, s.length < n → fileLines n s = some ls := by
  induction h with
  | @last s l hl =>
    intro n hn
    obtain ⟨n, rfl⟩ : ∃ m, n = m + 1 := ⟨n - 1, by omega⟩
    have := line_complete hl (r := []) (.inl rfl)
    rw [List.append_nil] at this
    simp [fileLines, this, newline?]
  | @line s nl rest l ls hl hnl _ ih =>
    intro n hn
    obtain ⟨h1, h2, h3⟩ := newline?_app hnl
    obtain ⟨n, rfl⟩ : ∃ m, n = m + 1 := ⟨n - 1, by omega⟩
    have := line_complete hl h2
    simp only [fileLines, this, h1]
    rw [ih n (by simp only [List.length_append] at hn; omega)]
    rfl

theorem file_sound (n : Nat) : ∀ {s : Text} {ls : List GenLine}, fileLines n s = some ls →
    FileIs GenLineIs s ls := by
  induction n with
  | zero => intro s ls h; cases h
  | succ n ih =>
    intro s ls h
    simp only [fileLines] at h
    cases hl : line s with
    | mk l r =>
      rw [hl] at h
      simp only at h
      split at h
      · rename_i r' hn
        obtain ⟨heol, nl, e, hnl⟩ := newline?_some hn
        obtain ⟨s', e', hs'⟩ := line_sound hl heol
        cases hf : fileLines n r' with
        | none => rw [hf] at h; cases h
        | some ls' =>
          rw [hf] at h
          cases h
          rw [e', e]
          exact .line hs' hnl (ih hf)
      · split at h
        · rename_i hr
          cases h
          have : r = [] := List.isEmpty_iff.1 hr
          subst this
          obtain ⟨s', e', hs'⟩ := line_sound hl (.inl rfl)
          rw [e', List.append_nil]
          exact .last hs'
        · cases h

end TM.Format
