import Verif.Reset.Model
/-!
# C137: the storage is wiped only when the user says so, and only the storage
-/
namespace TM.Reset

/-! ## Lemmas -/

def usable : Forest → Prop
  | .nil => True
  | .file _ rest => usable rest
  | .link _ _ rest => usable rest
  | .dir _ mode children rest => (mode.r = true ∧ (children = .nil ∨ mode.w = true ∧ mode.x = true) ∧ usable children) ∧ usable rest

def fine : Forest → Prop
  | .nil => True
  | .file _ rest => fine rest
  | .link _ _ rest => fine rest
  | .dir _ mode children rest => (if mode.r = true then fine children else usable children) ∧ fine rest

theorem hasDir_nil {p : Path} {m : Mode} {c : Forest} : ¬ HasDir .nil p m c := nofun
theorem hasDir_file {n : Text} {rest : Forest} {p : Path} {m : Mode} {c : Forest} :
    HasDir (.file n rest) p m c ↔ HasDir rest p m c := ⟨fun h => by cases h; assumption, .file n⟩
theorem hasDir_link {n : Text} {t : Option Path} {rest : Forest} {p : Path} {m : Mode} {c : Forest} :
    HasDir (.link n t rest) p m c ↔ HasDir rest p m c := ⟨fun h => by cases h; assumption, .link n t⟩
theorem hasDir_dir {n : Text} {mode : Mode} {children rest : Forest} {p : Path} {m : Mode} {c : Forest} :
    HasDir (.dir n mode children rest) p m c ↔
      (p = [n] ∧ m = mode ∧ c = children) ∨ (∃ q, p = n :: q ∧ HasDir children q m c) ∨ HasDir rest p m c := by
  constructor
  · intro h
    cases h with
    | here => exact .inl ⟨rfl, rfl, rfl⟩
    | inside _ _ _ h => exact .inr (.inl ⟨_, rfl, h⟩)
    | next _ _ _ h => exact .inr (.inr h)
  · rintro (⟨rfl, rfl, rfl⟩ | ⟨q, rfl, h⟩ | h)
    · exact .here _ _ _ _
    · exact .inside _ _ _ h
    · exact .next _ _ _ h

theorem usable_iff : ∀ f, usable f ↔ Removable f
  | .nil => ⟨fun _ _ _ _ h => absurd h hasDir_nil, fun _ => trivial⟩
  | .file n rest => by
    rw [usable, usable_iff rest]
    simp only [Removable, hasDir_file]
  | .link n t rest => by
    rw [usable, usable_iff rest]
    simp only [Removable, hasDir_link]
  | .dir n mode children rest => by
    rw [usable, usable_iff children, usable_iff rest]
    simp only [Removable, hasDir_dir]
    constructor
    · rintro ⟨⟨h1, h2, h3⟩, h4⟩ p m c (⟨-, rfl, rfl⟩ | ⟨q, -, h⟩ | h)
      · exact ⟨h1, h2⟩
      · exact h3 q m c h
      · exact h4 p m c h
    · intro h
      obtain ⟨h1, h2⟩ := h [n] mode children (.inl ⟨rfl, rfl, rfl⟩)
      exact ⟨⟨h1, h2, fun p m c h' => h (n :: p) m c (.inr (.inl ⟨p, rfl, h'⟩))⟩, fun p m c h' => h p m c (.inr (.inr h'))⟩

/-- What is inside a directory that cannot be listed can be removed as it is. -/
def Fine (f : Forest) : Prop := ∀ p m c, HasDir f p m c → m.r = false → Removable c

theorem removable_inside {f : Forest} (h : Removable f) {p : Path} {m : Mode} {c : Forest} (hd : HasDir f p m c) : Removable c := by
  induction hd with
  | here n mode children rest => exact fun p m c h' => h _ m c (.inside _ _ _ h')
  | inside n mode rest _ ih => exact ih (fun p m c h' => h _ m c (.inside _ _ _ h'))
  | file n _ ih => exact ih (fun p m c h' => h _ m c (.file _ h'))
  | link n t _ ih => exact ih (fun p m c h' => h _ m c (.link _ _ h'))
  | next n mode children _ ih => exact ih (fun p m c h' => h _ m c (.next _ _ _ h'))

theorem fine_iff : ∀ f, fine f ↔ Fine f
  | .nil => ⟨fun _ _ _ _ h => absurd h hasDir_nil, fun _ => trivial⟩
  | .file n rest => by
    rw [fine, fine_iff rest]
    simp only [Fine, hasDir_file]
  | .link n t rest => by
    rw [fine, fine_iff rest]
    simp only [Fine, hasDir_link]
  | .dir n mode children rest => by
    rw [fine, fine_iff children, fine_iff rest, usable_iff children]
    simp only [Fine, hasDir_dir]
    constructor
    · rintro ⟨h1, h2⟩ p m c (⟨-, rfl, rfl⟩ | ⟨q, -, h⟩ | h) hr
      · rw [hr, if_neg (by decide)] at h1
        exact h1
      · split at h1
        · exact h1 q m c h hr
        · exact removable_inside h1 h
      · exact h2 p m c h hr
    · intro h
      refine ⟨?_, fun p m c h' => h p m c (.inr (.inr h'))⟩
      split
      · exact fun p m c h' => h (n :: p) m c (.inr (.inl ⟨p, rfl, h'⟩))
      · rename_i hr
        exact h [n] mode children (.inl ⟨rfl, rfl, rfl⟩) (by simpa using hr)

theorem remove_ok : ∀ (f : Forest) (can : Bool), (remove can f).2 = true ↔ usable f ∧ (f = .nil ∨ can = true)
  | .nil, can => by simp [remove, usable]
  | .file n rest, can => by
    have := remove_ok rest can
    cases can with
    | true => simp [remove, usable, this]
    | false => simp [remove]
  | .link n t rest, can => by
    have := remove_ok rest can
    cases can with
    | true => simp [remove, usable, this]
    | false => simp [remove]
  | .dir n mode children rest, can => by
    have h1 := remove_ok children (mode.w && mode.x)
    have h2 := remove_ok rest can
    rw [Bool.and_eq_true] at h1
    simp only [remove, usable]
    by_cases hr : mode.r = true
    · rw [if_pos hr]
      by_cases hc : ((remove (mode.w && mode.x) children).2 && can) = true
      · rw [if_pos hc, h2]
        rw [Bool.and_eq_true, h1] at hc
        constructor
        · rintro ⟨h3, -⟩
          exact ⟨⟨⟨hr, hc.1.2, hc.1.1⟩, h3⟩, .inr hc.2⟩
        · rintro ⟨⟨-, h3⟩, -⟩
          exact ⟨h3, .inr hc.2⟩
      · rw [if_neg hc]
        rw [Bool.and_eq_true, h1] at hc
        constructor
        · nofun
        · rintro ⟨⟨⟨-, h3, h4⟩, -⟩, h5⟩
          exact absurd ⟨⟨h4, h3⟩, h5.resolve_left nofun⟩ hc
    · rw [if_neg hr]
      exact ⟨nofun, fun h => absurd h.1.1.1 hr⟩

theorem chmod_usable : ∀ f, usable (chmod f).1 ↔ fine f
  | .nil => Iff.rfl
  | .file n rest => by simp only [chmod, usable, fine, chmod_usable rest]
  | .link n t rest => by simp only [chmod, usable, fine, chmod_usable rest]
  | .dir n mode children rest => by
    simp only [chmod, fine]
    split <;> simp only [usable, chmod_usable rest, Mode.all, true_and, and_true, or_true, chmod_usable children]

theorem hasLink_nil {t : Path} : ¬ HasLink .nil t := nofun
theorem hasLink_file {n : Text} {rest : Forest} {t : Path} : HasLink (.file n rest) t ↔ HasLink rest t :=
  ⟨fun h => by cases h; assumption, .file n⟩
theorem hasLink_link {n : Text} {o : Option Path} {rest : Forest} {t : Path} :
    HasLink (.link n o rest) t ↔ o = some t ∨ HasLink rest t := by
  constructor
  · intro h
    cases h with
    | here => exact .inl rfl
    | link _ _ h => exact .inr h
  · rintro (rfl | h)
    · exact .here _ _ _
    · exact .link _ _ h
theorem hasLink_dir {n : Text} {mode : Mode} {children rest : Forest} {t : Path} :
    HasLink (.dir n mode children rest) t ↔ HasLink children t ∨ HasLink rest t := by
  constructor
  · intro h
    cases h with
    | inside _ _ _ h => exact .inl h
    | next _ _ _ h => exact .inr h
  · rintro (h | h)
    · exact .inside _ _ _ h
    · exact .next _ _ _ h

theorem touched_link : ∀ (f : Forest) {t : Path}, t ∈ (chmod f).2 → HasLink f t
  | .nil, t, h => by cases h
  | .file n rest, t, h => .file n (touched_link rest h)
  | .link n o rest, t, h => by
    rcases List.mem_append.1 h with h | h
    · exact hasLink_link.2 (.inl (Option.mem_toList.1 h))
    · exact hasLink_link.2 (.inr (touched_link rest h))
  | .dir n mode children rest, t, h => by
    simp only [chmod] at h
    split at h
    · rcases List.mem_append.1 h with h | h
      · exact hasLink_dir.2 (.inl (touched_link children h))
      · exact hasLink_dir.2 (.inr (touched_link rest h))
    · exact hasLink_dir.2 (.inr (touched_link rest h))

theorem link_touched : ∀ (f : Forest) {t : Path}, Listable f → HasLink f t → t ∈ (chmod f).2
  | .nil, t, _, h => absurd h hasLink_nil
  | .file n rest, t, hl, h => link_touched rest (fun p m c h' => hl p m c (.file _ h')) (hasLink_file.1 h)
  | .link n o rest, t, hl, h => by
    rcases hasLink_link.1 h with h | h
    · exact List.mem_append.2 (.inl (Option.mem_toList.2 h))
    · exact List.mem_append.2 (.inr (link_touched rest (fun p m c h' => hl p m c (.link _ _ h')) h))
  | .dir n mode children rest, t, hl, h => by
    simp only [chmod]
    rw [if_pos (hl _ _ _ (.here _ _ _ _))]
    rcases hasLink_dir.1 h with h | h
    · exact List.mem_append.2 (.inl (link_touched children (fun p m c h' => hl _ m c (.inside _ _ _ h')) h))
    · exact List.mem_append.2 (.inr (link_touched rest (fun p m c h' => hl p m c (.next _ _ _ h')) h))

theorem chmod_dirs : ∀ (f : Forest) {p : Path} {m : Mode} {c : Forest}, HasDir (chmod f).1 p m c → ∃ m0 c0, HasDir f p m0 c0
  | .nil, p, m, c, h => absurd h hasDir_nil
  | .file n rest, p, m, c, h => by
    obtain ⟨m0, c0, h⟩ := chmod_dirs rest (hasDir_file.1 h)
    exact ⟨m0, c0, .file _ h⟩
  | .link n o rest, p, m, c, h => by
    obtain ⟨m0, c0, h⟩ := chmod_dirs rest (hasDir_link.1 h)
    exact ⟨m0, c0, .link _ _ h⟩
  | .dir n mode children rest, p, m, c, h => by
    simp only [chmod] at h
    split at h
    · rcases hasDir_dir.1 h with ⟨rfl, -, -⟩ | ⟨q, rfl, h'⟩ | h'
      · exact ⟨_, _, .here _ _ _ _⟩
      · obtain ⟨m0, c0, h⟩ := chmod_dirs children h'
        exact ⟨m0, c0, .inside _ _ _ h⟩
      · obtain ⟨m0, c0, h⟩ := chmod_dirs rest h'
        exact ⟨m0, c0, .next _ _ _ h⟩
    · rcases hasDir_dir.1 h with ⟨rfl, -, -⟩ | ⟨q, rfl, h'⟩ | h'
      · exact ⟨_, _, .here _ _ _ _⟩
      · exact ⟨m, c, .inside _ _ _ h'⟩
      · obtain ⟨m0, c0, h⟩ := chmod_dirs rest h'
        exact ⟨m0, c0, .next _ _ _ h⟩

theorem remove_dirs : ∀ (f : Forest) (can : Bool) {p : Path} {m : Mode} {c : Forest}, HasDir (remove can f).1 p m c →
    ∃ c0, HasDir f p m c0
  | .nil, can, p, m, c, h => absurd h hasDir_nil
  | .file n rest, can, p, m, c, h => by
    simp only [remove] at h
    split at h
    · obtain ⟨c0, h⟩ := remove_dirs rest can h
      exact ⟨c0, .file _ h⟩
    · exact ⟨c, h⟩
  | .link n o rest, can, p, m, c, h => by
    simp only [remove] at h
    split at h
    · obtain ⟨c0, h⟩ := remove_dirs rest can h
      exact ⟨c0, .link _ _ h⟩
    · exact ⟨c, h⟩
  | .dir n mode children rest, can, p, m, c, h => by
    simp only [remove] at h
    split at h
    · split at h
      · obtain ⟨c0, h⟩ := remove_dirs rest can h
        exact ⟨c0, .next _ _ _ h⟩
      · rcases hasDir_dir.1 h with ⟨rfl, rfl, -⟩ | ⟨q, rfl, h'⟩ | h'
        · exact ⟨_, .here _ _ _ _⟩
        · obtain ⟨c0, h⟩ := remove_dirs children _ h'
          exact ⟨c0, .inside _ _ _ h⟩
        · exact ⟨c, .next _ _ _ h'⟩
    · exact ⟨c, h⟩

theorem toLower_y (c : Char) : c.toLower = 'y' ↔ c = 'y' ∨ c = 'Y' := by
  constructor
  · intro h
    unfold Char.toLower at h
    split at h
    · rename_i hc
      right
      have := congrArg Char.toNat h
      apply Char.ext
      apply UInt32.toNat_inj.1
      have h1 := congrArg (fun c : Char => c.val.toNat) h
      simp only [UInt32.toNat_add] at h1
      have h2 := UInt32.le_iff_toNat_le.1 hc.1
      have h3 := UInt32.le_iff_toNat_le.1 hc.2
      simp at h1 h2 h3 ⊢
      omega
    · exact .inl h
  · rintro (rfl | rfl) <;> decide

theorem confirmed_iff (line : Text) : confirmed line = true ↔ SaysYes line := by
  unfold confirmed SaysYes
  rw [decide_eq_true_eq]
  constructor
  · intro h
    obtain ⟨c, hc, hy⟩ : ∃ c, ((line.dropWhile Solution.isWs).reverse.dropWhile Solution.isWs).reverse = [c] ∧ c.toLower = 'y' := by
      generalize ((line.dropWhile Solution.isWs).reverse.dropWhile Solution.isWs).reverse = w at h
      cases w with
      | nil => cases h
      | cons c r =>
        cases r with
        | nil => exact ⟨c, rfl, by simpa using h⟩
        | cons _ _ => simp at h
    have h1 : (line.dropWhile Solution.isWs).reverse.dropWhile Solution.isWs = [c] := by
      rw [← List.reverse_reverse ((line.dropWhile Solution.isWs).reverse.dropWhile Solution.isWs), hc]
      rfl
    have h2 := List.takeWhile_append_dropWhile (p := Solution.isWs) (l := (line.dropWhile Solution.isWs).reverse)
    rw [h1] at h2
    have h3 : line.dropWhile Solution.isWs = c :: ((line.dropWhile Solution.isWs).reverse.takeWhile Solution.isWs).reverse := by
      have := congrArg List.reverse h2
      rw [List.reverse_reverse, List.reverse_append] at this
      exact this.symm
    refine ⟨line.takeWhile Solution.isWs, ((line.dropWhile Solution.isWs).reverse.takeWhile Solution.isWs).reverse, c, ?_, ?_, (toLower_y c).1 hy⟩
    · have h4 := List.takeWhile_append_dropWhile (p := Solution.isWs) (l := line)
      rw [h3] at h4
      exact h4.symm
    · intro x hx
      rcases List.mem_append.1 hx with hx | hx
      · exact List.all_eq_true.1 (List.all_takeWhile (p := Solution.isWs) (l := line)) x hx
      · exact List.all_eq_true.1 (List.all_takeWhile (p := Solution.isWs) (l := (line.dropWhile Solution.isWs).reverse)) x
          (List.mem_reverse.1 hx)
  · rintro ⟨a, b, c, rfl, hw, hc⟩
    have hn : ¬ Solution.isWs c = true := by
      rcases hc with rfl | rfl <;> decide
    rw [List.dropWhile_append_of_pos (fun x hx => hw x (List.mem_append.2 (.inl hx))), List.dropWhile_cons_of_neg hn,
      List.reverse_cons, List.dropWhile_append_of_pos (fun x hx => hw x (List.mem_append.2 (.inr (List.mem_reverse.1 hx)))),
      List.dropWhile_cons_of_neg hn]
    rcases hc with rfl | rfl <;> decide

theorem hasDir_ne {f : Forest} {p : Path} {m : Mode} {c : Forest} (h : HasDir f p m c) : p ≠ [] := by
  induction h with
  | here => nofun
  | inside => nofun
  | file _ _ ih => exact ih
  | link _ _ _ ih => exact ih
  | next _ _ _ _ ih => exact ih

/-! ## C137 -/

variable {line : Text} {can : Bool}

/-- **C137** Unless the user says yes, nothing is changed; and without a storage the tool says so. -/
theorem only_confirmed (store : Option (Mode × Forest)) :
    (¬ SaysYes line → reset line can store = ⟨.aborted, store, []⟩) ∧
    (SaysYes line → (reset line can store).how ≠ .aborted) ∧
    (SaysYes line → ((reset line can store).how = .missing ↔ store = none)) := by
  rw [← confirmed_iff]
  unfold reset
  refine ⟨fun h => if_neg h, fun h => ?_, fun h => ?_⟩ <;> rw [if_pos h]
  · cases store with
    | none => nofun
    | some s =>
      dsimp only
      split <;> nofun
  · cases store with
    | none => exact ⟨fun _ => rfl, fun _ => rfl⟩
    | some s =>
      dsimp only
      split <;> exact ⟨nofun, nofun⟩

theorem reset_some (h : SaysYes line) (mode : Mode) (entries : Forest) :
    (reset line can (some (mode, entries))).touched = (chmod (.dir [] mode entries .nil)).2 ∧
    (((reset line can (some (mode, entries))).how = .removed ∧ (reset line can (some (mode, entries))).store = none ∧
        (remove can (chmod (.dir [] mode entries .nil)).1).2 = true) ∨
      ((reset line can (some (mode, entries))).how = .failed ∧ (remove can (chmod (.dir [] mode entries .nil)).1).2 = false ∧
        ∀ mode' left, (reset line can (some (mode, entries))).store = some (mode', left) →
          HasDir (remove can (chmod (.dir [] mode entries .nil)).1).1 [[]] mode' left ∧
          ∀ p m c, HasDir left p m c → HasDir (remove can (chmod (.dir [] mode entries .nil)).1).1 ([] :: p) m c)) := by
  unfold reset
  rw [if_pos ((confirmed_iff line).2 h)]
  dsimp only
  have hroot : ∀ n m c r, (remove can (chmod (.dir [] mode entries .nil)).1).1 = .dir n m c r → n = [] := by
    intro n m c r e
    have : ∃ m' c', (chmod (.dir [] mode entries .nil)).1 = .dir [] m' c' .nil := by
      simp only [chmod]
      split <;> exact ⟨_, _, rfl⟩
    obtain ⟨m', c', e'⟩ := this
    rw [e'] at e
    simp only [remove] at e
    split at e
    · split at e
      · cases e
      · cases e; rfl
    · cases e; rfl
  split
  · rename_i hx
    exact ⟨rfl, .inl ⟨rfl, rfl, by rw [hx]⟩⟩
  · rename_i n m' left r hx
    refine ⟨rfl, .inr ⟨rfl, by rw [hx], ?_⟩⟩
    have hn := hroot n m' left r (by rw [hx])
    subst hn
    rw [hx]
    intro mode' left' e
    cases e
    exact ⟨.here _ _ _ _, fun p m c h => .inside _ _ _ h⟩
  · rename_i f _ hx
    exact ⟨rfl, .inr ⟨rfl, by rw [hx], nofun⟩⟩

/-- **C137** The storage is removed, and nothing of it is left, exactly when the user says yes, it can be removed from its
parent and what is inside a directory that cannot be listed can be removed without changing the modes. -/
theorem removed_iff (mode : Mode) (entries : Forest) :
    ((reset line can (some (mode, entries))).how = .removed ↔
      SaysYes line ∧ can = true ∧ Fine (.dir [] mode entries .nil)) ∧
    ((reset line can (some (mode, entries))).how = .removed → (reset line can (some (mode, entries))).store = none) := by
  by_cases hy : SaysYes line
  · have hok : (remove can (chmod (.dir [] mode entries .nil)).1).2 = true ↔ can = true ∧ Fine (.dir [] mode entries .nil) := by
      rw [remove_ok, chmod_usable, fine_iff, and_comm]
      have : (chmod (.dir [] mode entries .nil)).1 ≠ .nil := by
        simp only [chmod]
        split <;> nofun
      simp only [this, false_or]
    obtain ⟨-, ⟨h1, h2, h3⟩ | ⟨h1, h2, -⟩⟩ := reset_some (can := can) hy mode entries
    · exact ⟨⟨fun _ => ⟨hy, hok.1 h3⟩, fun _ => h1⟩, fun _ => h2⟩
    · rw [h1]
      refine ⟨⟨nofun, fun h => ?_⟩, nofun⟩
      rw [hok.2 h.2] at h2
      cases h2
  · rw [(only_confirmed _).1 hy]
    exact ⟨⟨nofun, fun h => absurd h.1 hy⟩, nofun⟩

/-- **C137** If the directories can be listed, whether or not they can be written, the storage is removed. -/
theorem wiped_partial (hy : SaysYes line) (hc : can = true) (mode : Mode) (entries : Forest)
    (hl : Listable (.dir [] mode entries .nil)) :
    (reset line can (some (mode, entries))).how = .removed ∧ (reset line can (some (mode, entries))).store = none := by
  have h := removed_iff (line := line) (can := can) mode entries
  have h1 := h.1.2 ⟨hy, hc, fun p m c hd hr => by rw [hl p m c hd] at hr; cases hr⟩
  exact ⟨h1, h.2 h1⟩

/-- **C137** The directories outside of the storage whose mode is changed are some of those its links lead to, and all of
them if its directories can be listed: none if there are no links to directories. -/
theorem outside_partial (hy : SaysYes line) (mode : Mode) (entries : Forest) :
    (∀ t ∈ (reset line can (some (mode, entries))).touched, HasLink entries t) ∧
    (Listable (.dir [] mode entries .nil) → ∀ t, HasLink entries t → t ∈ (reset line can (some (mode, entries))).touched) ∧
    ((∀ t, ¬ HasLink entries t) → (reset line can (some (mode, entries))).touched = []) := by
  have ht := (reset_some (can := can) hy mode entries).1
  have h1 : ∀ t ∈ (reset line can (some (mode, entries))).touched, HasLink entries t := by
    intro t h
    rw [ht] at h
    rcases hasLink_dir.1 (touched_link _ h) with h | h
    · exact h
    · exact absurd h hasLink_nil
  refine ⟨h1, fun hl t h => ?_, fun h => List.eq_nil_iff_forall_not_mem.2 (fun t ht => h t (h1 t ht))⟩
  rw [ht]
  exact link_touched _ hl (hasLink_dir.2 (.inl h))

/-- **C137** If the removal fails, the directories that are left were there. -/
theorem left_before (hy : SaysYes line) (mode : Mode) (entries : Forest) {mode' : Mode} {left : Forest}
    (h : (reset line can (some (mode, entries))).store = some (mode', left)) {p : Path} {m : Mode} {c : Forest}
    (hd : HasDir left p m c) : ∃ m0 c0, HasDir entries p m0 c0 := by
  obtain ⟨-, ⟨-, h2, -⟩ | ⟨-, -, h3⟩⟩ := reset_some (can := can) hy mode entries
  · rw [h2] at h
    cases h
  · obtain ⟨c1, h4⟩ := remove_dirs _ _ ((h3 _ _ h).2 p m c hd)
    obtain ⟨m0, c0, h5⟩ := chmod_dirs _ h4
    rcases hasDir_dir.1 h5 with ⟨e, -, -⟩ | ⟨q, e, h6⟩ | h6
    · cases e
      exact absurd rfl (hasDir_ne hd)
    · cases e
      exact ⟨m0, c0, h6⟩
    · exact absurd h6 hasDir_nil

/-! ## Where the code differs, and examples -/

/-- A read only directory, as those of the sandboxes. -/
def readOnly : Mode := ⟨true, false, true⟩

example : reset " Y\n".toList true (some (.all, .dir "sandboxes".toList readOnly (.file "a".toList .nil) .nil)) =
    ⟨.removed, none, []⟩ ∧
    reset "yes\n".toList true (some (.all, .nil)) = ⟨.aborted, some (.all, .nil), []⟩ ∧
    reset "y".toList true none = ⟨.missing, none, []⟩ := by decide +kernel

/-- The hypotheses of `wiped_partial` on a read only directory. -/
example : SaysYes " Y\n".toList ∧ Listable (.dir [] .all (.dir "sandboxes".toList readOnly (.file "a".toList .nil) .nil) .nil) := by
  refine ⟨⟨[' '], ['\n'], 'Y', by decide +kernel, by decide +kernel, .inr rfl⟩, fun p m c h => ?_⟩
  rcases hasDir_dir.1 h with ⟨-, rfl, -⟩ | ⟨q, -, h⟩ | h
  · rfl
  · rcases hasDir_dir.1 h with ⟨-, rfl, -⟩ | ⟨q, -, h⟩ | h
    · rfl
    · exact absurd (hasDir_file.1 h) hasDir_nil
    · exact absurd h hasDir_nil
  · exact absurd h hasDir_nil

/-- **C137** A directory that is not in the storage may have its mode changed. -/
theorem outside_changed : ∃ (line : Text) (mode : Mode) (entries : Forest) (t : Path),
    t ∈ (reset line true (some (mode, entries))).touched :=
  ⟨"y".toList, .all, .link "home".toList (some ["home".toList]) .nil, ["home".toList], by decide +kernel⟩

/-- **C137** The removal may fail, with the storage left, because of a read only directory inside one that cannot be listed:
the tool ends well anyway. -/
theorem not_wiped : ∃ (line : Text) (mode : Mode) (entries : Forest), SaysYes line ∧
    (reset line true (some (mode, entries))).how = .failed ∧ (reset line true (some (mode, entries))).store ≠ none :=
  ⟨"y".toList, .all, .dir "a".toList ⟨false, true, true⟩ (.dir "b".toList readOnly (.file "c".toList .nil) .nil) .nil,
    ⟨[], [], 'y', by decide +kernel, by decide +kernel, .inl rfl⟩, by decide +kernel, by decide +kernel⟩

end TM.Reset
