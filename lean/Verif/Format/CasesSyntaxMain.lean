import Verif.Format.CasesSyntax
import Verif.Format.GenSyntaxMain

/-!
# The parser of `gen/cases.gen` and its syntax: commands, lines and files
-/
namespace TM.Format

/-! ## Commands -/

theorem skipWs_stop {t : Text} (h : Stop isWs t) : skipWs t = t := by
  have := skipWs_app (a := []) (by intro c hc; cases hc) h
  simpa using this

theorem manager_select {a n z t : Text} (ha : Blank a) (hne : a ≠ []) (hn : Word n) (hz : Blank z)
    (hs : Stop isWs t ∧ Stop isWord t ∧ Stop isDigit t) :
    manager? (a ++ (n ++ (z ++ t))) = some ((n, none), t) := by
  unfold manager?
  rw [spaces?_app ha hne (word_stop hn)]
  simp only
  rw [word?_app hn (blank_stop hz hs.2).1]
  simp only
  cases z with
  | nil =>
    rw [List.nil_append, spaces?_none hs.1]
    simp only
    rw [skipWs_stop hs.1]
  | cons x z =>
    rw [spaces?_app hz (by simp) hs.1]
    simp only
    rw [word?_none hs.2.1]
    simp only
    rw [skipWs_app hz hs.1]

theorem manager_define {a n b p m z t : Text} {vs : List Text} (ha : Blank a) (hne : a ≠ [])
    (hn : Word n) (hb : Blank b) (hbe : b ≠ []) (hp : Word p) (hm : Words vs m) (hz : Blank z)
    (hs : Stop isWs t ∧ Stop isWord t ∧ Stop isDigit t) :
    manager? (a ++ (n ++ (b ++ (p ++ (m ++ (z ++ t)))))) = some ((n, some (p, m)), t) := by
  unfold manager?
  rw [spaces?_app ha hne (word_stop hn)]
  simp only
  have hst : Stop isWord (b ++ (p ++ (m ++ (z ++ t)))) := by
    cases b with
    | nil => exact absurd rfl hbe
    | cons c b =>
      intro c' u' h
      cases h
      rcases hb c (by simp) with rfl | rfl <;> decide
  rw [word?_app hn hst]
  simp only
  rw [spaces?_app hb hbe (word_stop hp)]
  simp only
  rw [word?_app hp (words_stop hm (blank_stop hz hs.2)).1]
  simp only
  rw [cmdWords_app hm hz hs _ (by simp only [List.length_append]; omega)]
  simp only
  rw [skipWs_app hz hs.1]
  have : (m ++ (z ++ t)).take ((m ++ (z ++ t)).length - (z ++ t).length) = m := by
    have e : (m ++ (z ++ t)).length - (z ++ t).length = m.length := by
      simp only [List.length_append]; omega
    rw [e, List.take_left]
  rw [this]

theorem manager_some {s r : Text} {n : Text} {o : Option (Text × Text)}
    (h : manager? s = some ((n, o), r)) : ∃ a z, Blank a ∧ a ≠ [] ∧ Word n ∧ Blank z ∧
      ((o = none ∧ s = a ++ (n ++ (z ++ r))) ∨
        ∃ b p m vs, o = some (p, m) ∧ Blank b ∧ b ≠ [] ∧ Word p ∧ Words vs m ∧
          s = a ++ (n ++ (b ++ (p ++ (m ++ (z ++ r)))))) := by
  unfold manager? at h
  split at h
  · cases h
  rename_i r0 h0
  obtain ⟨a, e0, ha, hne⟩ := spaces?_some h0
  split at h
  · cases h
  rename_i n' r1 h1
  obtain ⟨e1, hn, _⟩ := word?_some h1
  split at h
  · simp only [Option.some.injEq, Prod.mk.injEq] at h
    obtain ⟨⟨rfl, rfl⟩, rfl⟩ := h
    obtain ⟨z, e2, hz⟩ := skipWs_some r1
    exact ⟨a, z, ha, hne, hn, hz, .inl ⟨rfl, by rw [e0, e1, ← e2]⟩⟩
  rename_i r2 h2
  obtain ⟨b, e2, hb, hbe⟩ := spaces?_some h2
  split at h
  · simp only [Option.some.injEq, Prod.mk.injEq] at h
    obtain ⟨⟨rfl, rfl⟩, rfl⟩ := h
    obtain ⟨z, e2, hz⟩ := skipWs_some r1
    exact ⟨a, z, ha, hne, hn, hz, .inl ⟨rfl, by rw [e0, e1, ← e2]⟩⟩
  rename_i p r3 h3
  obtain ⟨e3, hp, _⟩ := word?_some h3
  cases hc : cmdWords r3.length r3 with
  | mk vs r4 =>
    rw [hc] at h
    simp only [Option.some.injEq, Prod.mk.injEq] at h
    obtain ⟨⟨rfl, rfl⟩, rfl⟩ := h
    obtain ⟨m, e4, hm⟩ := cmdWords_some _ hc
    obtain ⟨z, e5, hz⟩ := skipWs_some r4
    have ht : r3.take (r3.length - r4.length) = m := by
      rw [e4]
      have e : (m ++ r4).length - r4.length = m.length := by simp only [List.length_append]; omega
      rw [e, List.take_left]
    rw [ht]
    exact ⟨a, z, ha, hne, hn, hz, .inr ⟨b, p, m, vs, rfl, hb, hbe, hp, hm, by
      rw [e0, e1, e2, e3, e4, ← e5]⟩⟩

/-- The alternatives of a command. -/
def cmdAlt (r : Text) : Option (CCommand × Text) :=
  (gen? r).orElse fun _ => (val? r).orElse fun _ => (constraint? r).orElse fun _ =>
  (cSubtask? r).orElse fun _ => (stDep? r).orElse fun _ => (cCopy? r).orElse fun _ => run? r

theorem cmd_complete {s t r : Text} {c : CCommand} (h : CmdIs s c) (ht : Tail t) (hr : Eol r) :
    cmdAlt (s ++ (t ++ r)) = some (c, t ++ r) := by
  have hs := tail_stop ht hr
  have hrest := rest_stop ht hr
  unfold cmdAlt
  cases h with
  | @genSelect a n z ha hne hn hz =>
    have e : gen? ("GEN".toList ++ (a ++ (n ++ z)) ++ (t ++ r)) = some (.genSelect n, t ++ r) := by
      unfold gen?
      rw [List.append_assoc, lit?_app]
      simp only [List.append_assoc]
      rw [manager_select ha hne hn hz hs]
    rw [e]; rfl
  | @genDefine a n b p m z vs ha hne hn hb hbe hp hm hz =>
    have e : gen? ("GEN".toList ++ (a ++ (n ++ (b ++ (p ++ (m ++ z))))) ++ (t ++ r)) =
        some (.genDefine n p m, t ++ r) := by
      unfold gen?
      rw [List.append_assoc, lit?_app]
      simp only [List.append_assoc]
      rw [manager_define ha hne hn hb hbe hp hm hz hs]
    rw [e]; rfl
  | @valSelect a n z ha hne hn hz =>
    have e0 : gen? ("VAL".toList ++ (a ++ (n ++ z)) ++ (t ++ r)) = none := by simp [gen?, lit?]
    have e : val? ("VAL".toList ++ (a ++ (n ++ z)) ++ (t ++ r)) = some (.valSelect n, t ++ r) := by
      unfold val?
      rw [List.append_assoc, lit?_app]
      simp only [List.append_assoc]
      rw [manager_select ha hne hn hz hs]
    rw [e0, e]; rfl
  | @valDefine a n b p m z vs ha hne hn hb hbe hp hm hz =>
    have e0 : gen? ("VAL".toList ++ (a ++ (n ++ (b ++ (p ++ (m ++ z))))) ++ (t ++ r)) = none := by
      simp [gen?, lit?]
    have e : val? ("VAL".toList ++ (a ++ (n ++ (b ++ (p ++ (m ++ z))))) ++ (t ++ r)) =
        some (.valDefine n p m, t ++ r) := by
      unfold val?
      rw [List.append_assoc, lit?_app]
      simp only [List.append_assoc]
      rw [manager_define ha hne hn hb hbe hp hm hz hs]
    rw [e0, e]; rfl
  | @constraint a xt m z x rest ha hne hx hc hm hre hz =>
    have e0 : gen? ("CONSTRAINT".toList ++ (a ++ (xt ++ (m ++ z))) ++ (t ++ r)) = none := by
      simp [gen?, lit?]
    have e1 : val? ("CONSTRAINT".toList ++ (a ++ (xt ++ (m ++ z))) ++ (t ++ r)) = none := by
      simp [val?, lit?]
    have e : constraint? ("CONSTRAINT".toList ++ (a ++ (xt ++ (m ++ z))) ++ (t ++ r)) =
        some (.constraint x rest, t ++ r) := by
      unfold constraint?
      rw [List.append_assoc, lit?_app]
      simp only [List.append_assoc]
      rw [spaces?_app ha hne (operand_stop hx _)]
      simp only
      have hst := cmps_stop hm (z := z ++ (t ++ r)) (blank_stop hz hs.2) hc
      rw [operand?_app hx hst.1 hst.2]
      simp only
      rw [comparisons_app hm hz ht hr _ (by simp only [List.length_append]; omega)]
      cases rest with
      | nil => exact absurd rfl hre
      | cons y rest =>
        simp only
        rw [skipWs_app hz hs.1]
    rw [e0, e1, e]; rfl
  | @subtask a f z ha hne hf hz =>
    have e0 : gen? ("SUBTASK".toList ++ (a ++ (f ++ z)) ++ (t ++ r)) = none := by simp [gen?, lit?]
    have e1 : val? ("SUBTASK".toList ++ (a ++ (f ++ z)) ++ (t ++ r)) = none := by simp [val?, lit?]
    have e2 : constraint? ("SUBTASK".toList ++ (a ++ (f ++ z)) ++ (t ++ r)) = none := by
      simp [constraint?, lit?]
    have e : cSubtask? ("SUBTASK".toList ++ (a ++ (f ++ z)) ++ (t ++ r)) =
        some (.subtask f none, t ++ r) := by
      unfold cSubtask?
      rw [List.append_assoc, lit?_app]
      simp only [List.append_assoc]
      rw [spaces?_app ha hne (float_stop hf _)]
      simp only
      have hdot : (z ++ (t ++ r)).head? ≠ some '.' := by
        cases z with
        | nil =>
          rcases ht with rfl | ⟨u, rfl, _⟩
          · rcases hr with rfl | ⟨c, u, rfl, hc⟩
            · simp
            · intro hh
              cases hh
              cases hc
          · simp
        | cons c z =>
          intro hh
          cases hh
          rcases hz '.' (by simp) with h | h <;> cases h
      rw [float?_app hf (blank_stop hz hs.2).2 hdot]
      simp only
      cases z with
      | nil =>
        rw [List.nil_append, spaces?_none hs.1]
        simp only
        rw [skipWs_stop hs.1]
      | cons x z =>
        rw [spaces?_app hz (by simp) hs.1]
        simp only
        rw [rest?_none hrest]
        simp only
        rw [skipWs_app hz hs.1]
    rw [e0, e1, e2, e]; rfl
  | @described a f b d ha hne hf hb hbe hd hnb =>
    have e0 : gen? ("SUBTASK".toList ++ (a ++ (f ++ (b ++ d))) ++ (t ++ r)) = none := by
      simp [gen?, lit?]
    have e1 : val? ("SUBTASK".toList ++ (a ++ (f ++ (b ++ d))) ++ (t ++ r)) = none := by
      simp [val?, lit?]
    have e2 : constraint? ("SUBTASK".toList ++ (a ++ (f ++ (b ++ d))) ++ (t ++ r)) = none := by
      simp [constraint?, lit?]
    have e : cSubtask? ("SUBTASK".toList ++ (a ++ (f ++ (b ++ d))) ++ (t ++ r)) =
        some (.subtask f (some d), t ++ r) := by
      unfold cSubtask?
      rw [List.append_assoc, lit?_app]
      simp only [List.append_assoc]
      rw [spaces?_app ha hne (float_stop hf _)]
      simp only
      have hst : Stop isDigit (b ++ (d ++ (t ++ r))) ∧ (b ++ (d ++ (t ++ r))).head? ≠ some '.' := by
        cases b with
        | nil => exact absurd rfl hbe
        | cons c b =>
          have := hb c (by simp)
          constructor
          · intro c' u' h
            cases h
            rcases this with rfl | rfl <;> decide
          · intro hh
            cases hh
            rcases this with h | h <;> cases h
      rw [float?_app hf hst.1 hst.2]
      simp only
      rw [spaces?_app hb hbe (noBlank_stop hnb hd.1 _)]
      simp only
      rw [rest?_app hd hrest]
      simp only
      rw [skipWs_stop hs.1]
    rw [e0, e1, e2, e]; rfl
  | @stDep m z ws hm hz =>
    have e0 : gen? ("STDEP".toList ++ (m ++ z) ++ (t ++ r)) = none := by simp [gen?, lit?]
    have e1 : val? ("STDEP".toList ++ (m ++ z) ++ (t ++ r)) = none := by simp [val?, lit?]
    have e2 : constraint? ("STDEP".toList ++ (m ++ z) ++ (t ++ r)) = none := by simp [constraint?, lit?]
    have e3 : cSubtask? ("STDEP".toList ++ (m ++ z) ++ (t ++ r)) = none := by simp [cSubtask?, lit?]
    have e : stDep? ("STDEP".toList ++ (m ++ z) ++ (t ++ r)) = some (.stDep ws, t ++ r) := by
      unfold stDep?
      rw [List.append_assoc, lit?_app]
      simp only [List.append_assoc]
      rw [cmdWords_app hm hz hs _ (by simp only [List.length_append]; omega)]
      simp only
      rw [skipWs_app hz hs.1]
    rw [e0, e1, e2, e3, e]; rfl
  | @copy a p ha hne hp hnb =>
    have e0 : gen? ("COPY".toList ++ (a ++ p) ++ (t ++ r)) = none := by simp [gen?, lit?]
    have e1 : val? ("COPY".toList ++ (a ++ p) ++ (t ++ r)) = none := by simp [val?, lit?]
    have e2 : constraint? ("COPY".toList ++ (a ++ p) ++ (t ++ r)) = none := by simp [constraint?, lit?]
    have e3 : cSubtask? ("COPY".toList ++ (a ++ p) ++ (t ++ r)) = none := by simp [cSubtask?, lit?]
    have e4 : stDep? ("COPY".toList ++ (a ++ p) ++ (t ++ r)) = none := by simp [stDep?, lit?]
    have e : cCopy? ("COPY".toList ++ (a ++ p) ++ (t ++ r)) = some (.copy p, t ++ r) := by
      unfold cCopy?
      rw [List.append_assoc, lit?_app]
      simp only [List.append_assoc]
      rw [spaces?_app ha hne (noBlank_stop hnb hp.1 _)]
      simp only
      rw [rest?_app hp hrest]
      simp only
      rw [skipWs_stop hs.1]
    rw [e0, e1, e2, e3, e4, e]; rfl
  | @run a n b p ha hne hn hb hbe hp hnb =>
    have e0 : gen? ("RUN".toList ++ (a ++ (n ++ (b ++ p))) ++ (t ++ r)) = none := by simp [gen?, lit?]
    have e1 : val? ("RUN".toList ++ (a ++ (n ++ (b ++ p))) ++ (t ++ r)) = none := by simp [val?, lit?]
    have e2 : constraint? ("RUN".toList ++ (a ++ (n ++ (b ++ p))) ++ (t ++ r)) = none := by
      simp [constraint?, lit?]
    have e3 : cSubtask? ("RUN".toList ++ (a ++ (n ++ (b ++ p))) ++ (t ++ r)) = none := by
      simp [cSubtask?, lit?]
    have e4 : stDep? ("RUN".toList ++ (a ++ (n ++ (b ++ p))) ++ (t ++ r)) = none := by simp [stDep?, lit?]
    have e5 : cCopy? ("RUN".toList ++ (a ++ (n ++ (b ++ p))) ++ (t ++ r)) = none := by simp [cCopy?, lit?]
    have e : run? ("RUN".toList ++ (a ++ (n ++ (b ++ p))) ++ (t ++ r)) = some (.run n p, t ++ r) := by
      unfold run?
      rw [List.append_assoc, lit?_app]
      simp only [List.append_assoc]
      rw [spaces?_app ha hne (word_stop hn)]
      simp only
      have hst : Stop isWord (b ++ (p ++ (t ++ r))) := by
        cases b with
        | nil => exact absurd rfl hbe
        | cons c b =>
          intro c' u' h
          cases h
          rcases hb c (by simp) with rfl | rfl <;> decide
      rw [word?_app hn hst]
      simp only
      rw [spaces?_app hb hbe (noBlank_stop hnb hp.1 _)]
      simp only
      rw [rest?_app hp hrest]
    rw [e0, e1, e2, e3, e4, e5, e]; rfl

theorem cmd_stop {s : Text} {c : CCommand} (h : CmdIs s c) (t : Text) : Stop isWs (s ++ t) := by
  cases h <;> (intro c' u' h; cases h; decide)

/-- After the text of a command only the trailing part and the end of the line are left. -/
theorem cmd_sound {s r : Text} {c : CCommand} (h : cmdAlt s = some (c, r)) {t u : Text}
    (hr : r = t ++ u) (ht : Tail t) (hu : Eol u) :
    ∃ s', s = s' ++ r ∧ CmdIs s' c := by
  have hs := hr ▸ tail_stop ht hu
  have hor : ∀ {x : Option (CCommand × Text)} {f : Unit → Option (CCommand × Text)} {y},
      x.orElse f = some y → x = some y ∨ f () = some y := by
    intro x f y h
    cases x with
    | none => exact .inr h
    | some z => exact .inl h
  have hsk : ∀ {v w : Text}, skipWs v = w → ∃ z, v = z ++ w ∧ Blank z := by
    intro v w e
    obtain ⟨z, e', hz⟩ := skipWs_some v
    rw [e] at e'
    exact ⟨z, e', hz⟩
  -- a free text is followed by no blank
  have hfree : ∀ {v w : Text}, Stop isRest v → skipWs v = w → v = w := by
    intro v w hv e
    rw [← e, skipWs_stop]
    intro c' u' h
    have := hv c' u' h
    cases hw : isWs c' with
    | false => rfl
    | true =>
      have : c' = ' ' ∨ c' = '\t' := by simpa [isWs] using hw
      rcases this with rfl | rfl <;> revert this <;> simp_all [isRest, isNl]
  unfold cmdAlt at h
  replace h := hor h
  rcases h with h | h
  · unfold gen? at h
    split at h
    · cases h
    rename_i v hv
    have e0 := lit?_some hv
    split at h
    · cases h
    · rename_i n r' hm
      simp only [Option.some.injEq, Prod.mk.injEq] at h
      obtain ⟨rfl, rfl⟩ := h
      obtain ⟨a, z, ha, hne, hn, hz, ⟨_, e⟩ | ⟨_, _, _, _, e, _⟩⟩ := manager_some hm
      · exact ⟨_, by rw [e0, e]; simp only [List.append_assoc], .genSelect ha hne hn hz⟩
      · cases e
    · rename_i n p m r' hm
      simp only [Option.some.injEq, Prod.mk.injEq] at h
      obtain ⟨rfl, rfl⟩ := h
      obtain ⟨a, z, ha, hne, hn, hz, ⟨e, _⟩ | ⟨b, p', m', vs, e, hb, hbe, hp, hm', e'⟩⟩ := manager_some hm
      · cases e
      · cases e
        exact ⟨_, by rw [e0, e']; simp only [List.append_assoc], .genDefine ha hne hn hb hbe hp hm' hz⟩
  replace h := hor h
  rcases h with h | h
  · unfold val? at h
    split at h
    · cases h
    rename_i v hv
    have e0 := lit?_some hv
    split at h
    · cases h
    · rename_i n r' hm
      simp only [Option.some.injEq, Prod.mk.injEq] at h
      obtain ⟨rfl, rfl⟩ := h
      obtain ⟨a, z, ha, hne, hn, hz, ⟨_, e⟩ | ⟨_, _, _, _, e, _⟩⟩ := manager_some hm
      · exact ⟨_, by rw [e0, e]; simp only [List.append_assoc], .valSelect ha hne hn hz⟩
      · cases e
    · rename_i n p m r' hm
      simp only [Option.some.injEq, Prod.mk.injEq] at h
      obtain ⟨rfl, rfl⟩ := h
      obtain ⟨a, z, ha, hne, hn, hz, ⟨e, _⟩ | ⟨b, p', m', vs, e, hb, hbe, hp, hm', e'⟩⟩ := manager_some hm
      · cases e
      · cases e
        exact ⟨_, by rw [e0, e']; simp only [List.append_assoc], .valDefine ha hne hn hb hbe hp hm' hz⟩
  replace h := hor h
  rcases h with h | h
  · unfold constraint? at h
    split at h
    · cases h
    rename_i v hv
    have e0 := lit?_some hv
    split at h
    · cases h
    rename_i v1 h1
    obtain ⟨a, e1, ha, hne⟩ := spaces?_some h1
    split at h
    · cases h
    rename_i x v2 h2
    obtain ⟨xt, e2, hx, hxs⟩ := operand?_some h2
    split at h
    · cases h
    rename_i xs v3 hxne h3
    simp only [Option.some.injEq, Prod.mk.injEq] at h
    obtain ⟨rfl, h⟩ := h
    obtain ⟨m, e3, hm⟩ := comparisons_some _ h3
    obtain ⟨z, e4, hz⟩ := hsk h
    have hcl : Closed x m := by
      intro w hw
      have := hxs ⟨w, hw⟩
      rw [e3] at this
      exact gap_of_stop this (cmps_shape hm)
    refine ⟨"CONSTRAINT".toList ++ (a ++ (xt ++ (m ++ z))), ?_, .constraint ha hne hx hcl hm ?_ hz⟩
    · rw [e0, e1, e2, e3, e4]; simp only [List.append_assoc]
    · intro hh; exact hxne hh
  replace h := hor h
  rcases h with h | h
  · unfold cSubtask? at h
    split at h
    · cases h
    rename_i v hv
    have e0 := lit?_some hv
    split at h
    · cases h
    rename_i v1 h1
    obtain ⟨a, e1, ha, hne⟩ := spaces?_some h1
    split at h
    · cases h
    rename_i f v2 h2
    obtain ⟨e2, hf⟩ := float?_some h2
    split at h
    · simp only [Option.some.injEq, Prod.mk.injEq] at h
      obtain ⟨rfl, h⟩ := h
      obtain ⟨z, e4, hz⟩ := hsk h
      exact ⟨_, by rw [e0, e1, e2, e4]; simp only [List.append_assoc], .subtask ha hne hf hz⟩
    rename_i v3 h3
    obtain ⟨b, e3, hb, hbe⟩ := spaces?_some h3
    split at h
    · simp only [Option.some.injEq, Prod.mk.injEq] at h
      obtain ⟨rfl, h⟩ := h
      obtain ⟨z, e4, hz⟩ := hsk h
      exact ⟨_, by rw [e0, e1, e2, e4]; simp only [List.append_assoc], .subtask ha hne hf hz⟩
    rename_i d v4 h4
    obtain ⟨e4, hd, hds⟩ := rest?_some h4
    simp only [Option.some.injEq, Prod.mk.injEq] at h
    obtain ⟨rfl, h⟩ := h
    have e5 := hfree hds h
    subst e5
    have hnb : NoBlank d := by
      have := spaces?_stop h3
      rw [e4] at this
      exact stop_noBlank this
    exact ⟨_, by rw [e0, e1, e2, e3, e4]; simp only [List.append_assoc], .described ha hne hf hb hbe hd hnb⟩
  replace h := hor h
  rcases h with h | h
  · unfold stDep? at h
    split at h
    · cases h
    rename_i v hv
    have e0 := lit?_some hv
    cases hc : cmdWords v.length v with
    | mk ws v1 =>
      rw [hc] at h
      simp only [Option.some.injEq, Prod.mk.injEq] at h
      obtain ⟨rfl, h⟩ := h
      obtain ⟨m, e1, hm⟩ := cmdWords_some _ hc
      obtain ⟨z, e4, hz⟩ := hsk h
      exact ⟨_, by rw [e0, e1, e4]; simp only [List.append_assoc], .stDep hm hz⟩
  replace h := hor h
  rcases h with h | h
  · unfold cCopy? at h
    split at h
    · cases h
    rename_i v hv
    have e0 := lit?_some hv
    split at h
    · cases h
    rename_i v3 h3
    obtain ⟨b, e3, hb, hbe⟩ := spaces?_some h3
    split at h
    · cases h
    rename_i d v4 h4
    obtain ⟨e4, hd, hds⟩ := rest?_some h4
    simp only [Option.some.injEq, Prod.mk.injEq] at h
    obtain ⟨rfl, h⟩ := h
    have e5 := hfree hds h
    subst e5
    have hnb : NoBlank d := by
      have := spaces?_stop h3
      rw [e4] at this
      exact stop_noBlank this
    exact ⟨_, by rw [e0, e3, e4]; simp only [List.append_assoc], .copy hb hbe hd hnb⟩
  · unfold run? at h
    split at h
    · cases h
    rename_i v hv
    have e0 := lit?_some hv
    split at h
    · cases h
    rename_i v1 h1
    obtain ⟨a, e1, ha, hne⟩ := spaces?_some h1
    split at h
    · cases h
    rename_i n v2 h2
    obtain ⟨e2, hn, _⟩ := word?_some h2
    split at h
    · cases h
    rename_i v3 h3
    obtain ⟨b, e3, hb, hbe⟩ := spaces?_some h3
    split at h
    · cases h
    rename_i d v4 h4
    obtain ⟨e4, hd, hds⟩ := rest?_some h4
    simp only [Option.some.injEq, Prod.mk.injEq] at h
    obtain ⟨rfl, rfl⟩ := h
    have hnb : NoBlank d := by
      have := spaces?_stop h3
      rw [e4] at this
      exact stop_noBlank this
    exact ⟨_, by rw [e0, e1, e2, e3, e4]; simp only [List.append_assoc], .run ha hne hn hb hbe hd hnb⟩

/-! ## Lines -/

theorem cCommand_eq (s : Text) : cCommand? s = match lit? [':'] s with
    | none => none
    | some r => cmdAlt (skipWs r) := rfl

theorem cLine_complete {s r : Text} {l : CLine} (h : CasesLineIs s l) (hr : Eol r) :
    cLine (s ++ r) = (l, r) := by
  unfold cLine
  cases h with
  | @comment u hu =>
    have e : riskyComment? ('#' :: u ++ r) = some r := by
      have := risky_app (t := '#' :: u) (.inr ⟨u, rfl, hu⟩) hr
      have hsome : (riskyComment? ('#' :: u ++ r)).isSome := by simp [riskyComment?, lit?]
      cases hx : riskyComment? ('#' :: u ++ r) with
      | none => rw [hx] at hsome; cases hsome
      | some y => rw [hx] at this; exact congrArg some this
    rw [e]
    simp only
    exact congrArg _ (risky_app (t := []) (.inl rfl) hr)
  | @command a s t c ha hc ht =>
    have e0 : riskyComment? (':' :: (a ++ (s ++ t)) ++ r) = none := by simp [riskyComment?, lit?]
    have e : cCommand? (':' :: (a ++ (s ++ t)) ++ r) = some (c, t ++ r) := by
      rw [cCommand_eq]
      have : lit? [':'] (':' :: (a ++ (s ++ t)) ++ r) = some (a ++ (s ++ (t ++ r))) := by simp [lit?]
      rw [this]
      simp only
      rw [skipWs_app ha (cmd_stop hc _), cmd_complete hc ht hr]
    rw [e0, e]
    simp only
    rw [risky_app ht hr]
  | @testcase s t hf hne ht =>
    cases s with
    | nil => exact absurd rfl hf.1
    | cons x s =>
      have hx1 : '#' ≠ x := fun e => (hf.2 x (by simp)).1 e.symm
      have hx2 : ':' ≠ x := fun e => hne (by rw [e]; rfl)
      have e0 : riskyComment? (x :: s ++ t ++ r) = none := by simp [riskyComment?, lit?, hx1]
      have e1 : cCommand? (x :: s ++ t ++ r) = none := by simp [cCommand?, lit?, hx2]
      have e : cTestcase? (x :: s ++ t ++ r) = some (x :: s, t ++ r) := by
        unfold cTestcase?
        have l1 : lit? ['#'] (x :: s ++ t ++ r) = none := by simp [lit?, hx1]
        have l2 : lit? [':'] (x :: s ++ t ++ r) = none := by simp [lit?, hx2]
        rw [l1, l2]
        simp only
        rw [List.append_assoc, rest?_app hf (rest_stop ht hr)]
      rw [e0, e1, e]
      simp only
      rw [risky_app ht hr]
  | empty =>
    rw [List.nil_append]
    have hlit : ∀ c : Char, isNl c = false → lit? [c] r = none := by
      intro c hc
      rcases hr with rfl | ⟨d, u, rfl, hd⟩
      · rfl
      · have : c ≠ d := by rintro rfl; rw [hc] at hd; cases hd
        simp [lit?, this]
    have e0 : riskyComment? r = none := by simp [riskyComment?, hlit '#' (by decide)]
    have e1 : cCommand? r = none := by simp [cCommand?, hlit ':' (by decide)]
    have e2 : cTestcase? r = none := by
      unfold cTestcase?
      rw [hlit '#' (by decide), hlit ':' (by decide)]
      exact rest?_none (rest_stop (t := []) (.inl rfl) hr)
    rw [e0, e1, e2]
    simp only
    rw [skipWs_stop (eol_stop hr).1, e0]
    rfl

theorem cLine_sound {s r : Text} {l : CLine} (h : cLine s = (l, r)) (hr : Eol r) :
    ∃ s', s = s' ++ r ∧ CasesLineIs s' l := by
  unfold cLine at h
  cases h0 : riskyComment? s with
  | some v =>
    rw [h0] at h
    simp only [Prod.mk.injEq] at h
    obtain ⟨rfl, h⟩ := h
    unfold riskyComment? at h0
    cases hl : lit? ['#'] s with
    | none => rw [hl] at h0; cases h0
    | some w =>
      rw [hl] at h0
      have e := lit?_some hl
      have hv : v = skipLine w := by
        simp only [Option.map_some, Option.some.injEq] at h0
        exact h0.symm
      have hvs : Stop (fun c => !isNl c) v := hv ▸ dropWhile_stop _ _
      have hnr : riskyComment? v = none := by
        unfold riskyComment?
        have : lit? ['#'] v = none := by
          cases v with
          | nil => rfl
          | cons c v =>
            have := hvs c v rfl
            have hc : '#' ≠ c := by rintro rfl; cases this
            simp [lit?, hc]
        rw [this]; rfl
      rw [hnr] at h
      simp only [Option.getD_none] at h
      subst h
      refine ⟨'#' :: w.takeWhile (fun c => !isNl c), ?_, .comment (oneLine_iff.2 takeWhile_all')⟩
      rw [e, hv]
      simp only [List.cons_append]
      exact congrArg _ (List.takeWhile_append_dropWhile).symm
  | none =>
    rw [h0] at h
    have hh : lit? ['#'] s = none := by
      unfold riskyComment? at h0
      cases hl : lit? ['#'] s with
      | none => rfl
      | some w => rw [hl] at h0; cases h0
    cases h1 : cCommand? s with
    | some p =>
      obtain ⟨c, v⟩ := p
      rw [h1] at h
      simp only [Prod.mk.injEq] at h
      obtain ⟨rfl, h⟩ := h
      obtain ⟨t, rfl, ht⟩ := risky_some h
      rw [cCommand_eq] at h1
      split at h1
      · cases h1
      rename_i w hw
      have e := lit?_some hw
      obtain ⟨a, e1, ha⟩ := skipWs_some w
      obtain ⟨s', e2, hs'⟩ := cmd_sound h1 rfl ht hr
      refine ⟨':' :: (a ++ (s' ++ t)), ?_, .command ha hs' ht⟩
      rw [e, e1, e2]; simp
    | none =>
      rw [h1] at h
      cases h2 : cTestcase? s with
      | some p =>
        obtain ⟨x, v⟩ := p
        rw [h2] at h
        simp only [Prod.mk.injEq] at h
        obtain ⟨rfl, h⟩ := h
        obtain ⟨t, rfl, ht⟩ := risky_some h
        unfold cTestcase? at h2
        split at h2
        · rename_i hc
          obtain ⟨e, hf, _⟩ := rest?_some h2
          refine ⟨x ++ t, by rw [e]; simp, .testcase hf ?_ ht⟩
          intro hx
          cases x with
          | nil => cases hx
          | cons y x =>
            cases hx
            rw [e] at hc
            simp [lit?] at hc
        · cases h2
      | none =>
        rw [h2] at h
        simp only [Prod.mk.injEq] at h
        obtain ⟨rfl, h⟩ := h
        cases h3 : lit? [':'] s with
        | some w =>
          exfalso
          have e := lit?_some h3
          rw [List.singleton_append] at e
          subst e
          have : skipWs (':' :: w) = ':' :: w := rfl
          rw [this] at h
          have h4 : riskyComment? (':' :: w) = none := by simp [riskyComment?, lit?]
          rw [h4] at h
          simp only [Option.getD_none] at h
          subst h
          rcases hr with h | ⟨c, u, h, hc⟩
          · cases h
          · cases h; cases hc
        | none =>
          unfold cTestcase? at h2
          rw [hh, h3] at h2
          have hst := rest?_none_iff h2
          have hsr : Stop isWs s := by
            intro c u e
            have h5 := hst c u e
            cases hw : isWs c with
            | false => rfl
            | true =>
              have : c = ' ' ∨ c = '\t' := by simpa [isWs] using hw
              rcases this with rfl | rfl <;> revert h5 <;> decide
          rw [skipWs_stop hsr, h0] at h
          simp only [Option.getD_none] at h
          subst h
          exact ⟨[], rfl, .empty⟩

/-! ## Files -/

theorem cFile_complete {s : Text} {ls : List CLine} (h : FileIs CasesLineIs s ls) :
    ∀ n, s.length < n → cFileLines n s = some ls := by
  induction h with
  | @last s l hl =>
    intro n hn
    obtain ⟨n, rfl⟩ : ∃ m, n = m + 1 := ⟨n - 1, by omega⟩
    have := cLine_complete hl (r := []) (.inl rfl)
    rw [List.append_nil] at this
    simp [cFileLines, this, newline?]
  | @line s nl rest l ls hl hnl _ ih =>
    intro n hn
    obtain ⟨h1, h2, h3⟩ := newline?_app hnl
    obtain ⟨n, rfl⟩ : ∃ m, n = m + 1 := ⟨n - 1, by omega⟩
    have := cLine_complete hl h2
    simp only [cFileLines, this, h1]
    rw [ih n (by simp only [List.length_append] at hn; omega)]
    rfl

theorem cFile_sound (n : Nat) : ∀ {s : Text} {ls : List CLine}, cFileLines n s = some ls →
    FileIs CasesLineIs s ls := by
  induction n with
  | zero => intro s ls h; cases h
  | succ n ih =>
    intro s ls h
    simp only [cFileLines] at h
    cases hl : cLine s with
    | mk l r =>
      rw [hl] at h
      simp only at h
      split at h
      · rename_i r' hn
        obtain ⟨heol, nl, e, hnl⟩ := newline?_some hn
        obtain ⟨s', e', hs'⟩ := cLine_sound hl heol
        cases hf : cFileLines n r' with
        | none => rw [hf] at h; cases h
        | some ls' =>
          rw [hf] at h
          cases h
          rw [e', e]
          exact .line hs' hnl (ih hf)
      · split at h
        · rename_i hr
          cases h
          have : r = [] := List.isEmpty_iff.1 hr
          subst this
          obtain ⟨s', e', hs'⟩ := cLine_sound hl (.inl rfl)
          rw [e', List.append_nil]
          exact .last hs'
        · cases h

end TM.Format
