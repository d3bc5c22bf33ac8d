import Verif.Sandbox.Model
/-! # Lemmas about the files of the sandboxes -/
namespace TM.Sandbox
open TM

theorem upd_self {A B : Type} [DecidableEq A] (f : A → B) (a : A) (b : B) : upd f a b a = b := by simp [upd]

theorem upd_ne {A B : Type} [DecidableEq A] (f : A → B) (a : A) (b : B) (x : A) (h : x ≠ a) : upd f a b x = f x := by
  simp [upd, h]

theorem at_setFile (w : World) (b : Nat) (bx : Box) (pl : Place) (i : Option Nat) (hb : w.box b = some bx)
    (b' : Nat) (pl' : Place) : (w.setFile b bx pl i).at b' pl' = if b' = b ∧ pl' = pl then i else w.at b' pl' := by
  unfold World.setFile World.at upd
  by_cases hbb : b' = b
  · subst hbb
    by_cases hp : pl' = pl <;> simp [hp, hb, upd]
  · simp [hbb]

theorem at_some {w : World} {b : Nat} {bx : Box} {pl : Place} (hb : w.box b = some bx) : w.at b pl = bx.files pl := by
  simp [World.at, hb]

/-- What is always true of the file system. -/
structure Inv (w : World) : Prop where
  stored : ∀ key i, w.store key = some i → i < w.next ∧ (w.inode i).write = false
  inj : ∀ k k' i, w.store k = some i → w.store k' = some i → k = k'
  used : ∀ b pl i, w.at b pl = some i → i < w.next
  shared : ∀ b pl b' pl' i, w.at b pl = some i → w.at b' pl' = some i →
    (b = b' ∧ pl = pl') ∨ ∃ key, w.store key = some i

theorem inv_init (lk : Bool) : Inv (World.init lk) := by
  refine ⟨?_, ?_, ?_, ?_⟩ <;> intros <;> simp_all [World.init, World.at]

/-- Each operation changes the state in one of these ways. -/
inductive Step (w : World) (op : Op) : World → Prop
  /-- a new or removed sandbox -/
  | boxes (b : Nat) (bx : Option Box) (hop : op.box? = some b ∧ op.place? = none)
      (hbx : ∀ x, bx = some x → w.box b = none ∧ ∀ pl, x.files pl = none) :
      Step w op { w with box := upd w.box b bx }
  /-- a name for the file of the store -/
  | hard (b : Nat) (bx : Box) (pl : Place) (key : FileStoreKey) (i : Nat) (hop : op = .link b pl key)
      (hb : w.box b = some bx) (hn : bx.files pl = none) (hk : w.store key = some i) :
      Step w op (w.setFile b bx pl (some i))
  /-- a new file -/
  | fresh (b : Nat) (bx : Box) (pl : Place) (n : Inode) (hop : op.place? = some (b, pl))
      (hb : w.box b = some bx) (hn : bx.files pl = none) :
      Step w op { w.setFile b bx pl (some w.next) with
        inode := upd w.inode w.next n
        next := w.next + 1 }
  /-- a removed file -/
  | gone (b : Nat) (bx : Box) (pl : Place) (hop : op = .unlink b pl) (hb : w.box b = some bx)
      (hr : bx.readOnly = false) : Step w op (w.setFile b bx pl none)
  /-- another content or mode for a file that could be written -/
  | change (b : Nat) (pl : Place) (i : Nat) (n : Inode) (hop : op.place? = some (b, pl)) (hi : w.at b pl = some i)
      (hw : (w.inode i).write = true) : Step w op { w with inode := upd w.inode i n }
  /-- a file becomes read only -/
  | mode (b : Nat) (pl : Place) (x : Bool) (i : Nat) (hop : op = .chmod b pl x) (hi : w.at b pl = some i) :
      Step w op { w with inode := upd w.inode i { w.inode i with write := false, exec := x } }
  /-- nothing -/
  | same (hop : op.box? = none) : Step w op w
  /-- a new file in the store -/
  | stored (key : FileStoreKey) (c : Bytes) (hop : op = .storeFile key c) (hk : w.store key = none) :
      Step w op { w with
        store := upd w.store key (some w.next)
        inode := upd w.inode w.next ⟨c, false, false⟩
        next := w.next + 1 }
  /-- a file of the store is removed -/
  | removed (key : FileStoreKey) (i : Nat) (hop : op = .removeFile key) (hk : w.store key = some i)
      (hu : ∀ b pl, w.at b pl ≠ some i) : Step w op { w with
        store := upd w.store key none
        inode := upd w.inode i { w.inode i with write := true } }

theorem step_of {w w' : World} {op : Op} (ha : Allowed w op) (hp : Polite w op) (h : op.apply w = some w') :
    Step w op w' := by
  cases op with
  | start b ro =>
    simp only [Op.apply] at h
    split at h
    · simp at h
    · rename_i hb
      simp only [Option.some.injEq] at h
      subst h
      exact .boxes b _ ⟨rfl, rfl⟩ (by intro x hx; simp only [Option.some.injEq] at hx; subst hx; exact ⟨hb, fun _ => rfl⟩)
  | link b pl key =>
    simp only [Op.apply] at h
    split at h
    · rename_i i bx hk hb
      split at h
      · rename_i j hj
        split at h
        · rename_i hw
          simp only [Option.some.injEq] at h
          subst h
          exact .change b pl j _ rfl (by rw [at_some hb]; exact hj) hw
        · simp at h
      · rename_i hn
        split at h
        · simp only [Option.some.injEq] at h
          subst h
          exact .hard b bx pl key i rfl hb hn hk
        · simp only [Option.some.injEq] at h
          subst h
          exact .fresh b bx pl _ rfl hb hn
    · simp at h
  | chmod b pl x =>
    simp only [Op.apply] at h
    split at h
    · rename_i i hi
      simp only [Option.some.injEq] at h
      subst h
      exact .mode b pl x i rfl hi
    · simp at h
  | touch b pl =>
    simp only [Op.apply] at h
    split at h
    · simp at h
    · rename_i bx hb
      split at h
      · rename_i j hj
        split at h
        · rename_i hw
          simp only [Option.some.injEq] at h
          subst h
          exact .change b pl j _ rfl (by rw [at_some hb]; exact hj) hw
        · simp at h
      · rename_i hn
        simp only [Option.some.injEq] at h
        subst h
        exact .fresh b bx pl _ rfl hb hn
  | write b pl c =>
    simp only [Op.apply] at h
    split at h
    · rename_i i hi
      split at h
      · rename_i hw
        simp only [Option.some.injEq] at h
        subst h
        exact .change b pl i _ rfl hi hw
      · simp at h
    · simp at h
  | create b pl =>
    simp only [Op.apply] at h
    split at h
    · simp at h
    · rename_i bx hb
      split at h
      · rename_i hc
        simp only [Option.some.injEq] at h
        subst h
        exact .fresh b bx pl _ rfl hb hc.2
      · simp at h
  | unlink b pl =>
    simp only [Op.apply] at h
    split at h
    · simp at h
    · rename_i bx hb
      split at h
      · simp at h
      · rename_i hr
        simp only [Option.some.injEq] at h
        subst h
        exact .gone b bx pl rfl hb (by simpa using hr)
  | progChmod b pl wr x =>
    simp only [Op.apply] at h
    split at h
    · simp at h
    · rename_i bx hb
      split at h
      · simp at h
      · split at h
        · rename_i i hi
          simp only [Option.some.injEq] at h
          subst h
          have hi' : w.at b pl = some i := by rw [at_some hb]; exact hi
          exact .change b pl i _ rfl hi' (hp i hi')
        · simp at h
  | finish b =>
    simp only [Op.apply, Option.some.injEq] at h
    subst h
    exact .boxes b none ⟨rfl, rfl⟩ (fun x hx => nomatch hx)
  | storeFile key c =>
    simp only [Op.apply] at h
    split at h
    · simp only [Option.some.injEq] at h
      subst h
      exact .same rfl
    · rename_i hk
      simp only [Option.some.injEq] at h
      subst h
      exact .stored key c rfl hk
  | removeFile key =>
    simp only [Op.apply] at h
    split at h
    · simp at h
    · rename_i i hk
      simp only [Option.some.injEq] at h
      subst h
      exact .removed key i rfl hk (fun b pl => ha i b pl hk)

/-- The names of files after a step: as they were, or new. -/
theorem Step.at_cases {w w' : World} {op : Op} (st : Step w op w') (b : Nat) (pl : Place) (i : Nat)
    (h : w'.at b pl = some i) : w.at b pl = some i ∨
      (op.place? = some (b, pl) ∧ i = w.next ∧ w'.next = w.next + 1 ∧ w'.store = w.store) ∨
      (∃ key, op = .link b pl key ∧ w.store key = some i ∧ w'.store = w.store) := by
  cases st with
  | boxes b' bx hop hbx =>
    left
    unfold World.at at h ⊢
    by_cases hb : b = b'
    · subst hb
      cases bx with
      | none => simp [upd] at h
      | some x => simp [upd, (hbx x rfl).2] at h
    · simpa [upd, hb] using h
  | hard b' bx pl' key j hop hb hn hk =>
    rw [at_setFile w b' bx pl' _ hb] at h
    split at h
    · rename_i he
      obtain ⟨rfl, rfl⟩ := he
      right; right
      simp only [Option.some.injEq] at h
      subst h
      exact ⟨key, hop, hk, rfl⟩
    · exact Or.inl h
  | fresh b' bx pl' n hop hb hn =>
    have h' : (w.setFile b' bx pl' (some w.next)).at b pl = some i := h
    rw [at_setFile w b' bx pl' _ hb] at h'
    split at h'
    · rename_i he
      obtain ⟨rfl, rfl⟩ := he
      right; left
      simp only [Option.some.injEq] at h'
      exact ⟨hop, h'.symm, rfl, rfl⟩
    · exact Or.inl h'
  | gone b' bx pl' hop hb hr =>
    rw [at_setFile w b' bx pl' _ hb] at h
    split at h
    · simp at h
    · exact Or.inl h
  | change | mode | same | stored | removed => exact Or.inl h

/-- A name of a file stays, unless the file or the sandbox is removed. -/
theorem Step.at_keep {w w' : World} {op : Op} (st : Step w op w') (b : Nat) (pl : Place) (i : Nat)
    (h : w.at b pl = some i) (hop : ¬ (op.box? = some b ∧ op.place? = none)) (hu : op ≠ .unlink b pl) :
    w'.at b pl = some i := by
  cases st with
  | boxes b' bx hop' hbx =>
    have hb : b ≠ b' := fun e => hop ⟨e ▸ hop'.1, hop'.2⟩
    unfold World.at at h ⊢
    simpa [upd, hb] using h
  | hard b' bx pl' key j hop' hb hn hk =>
    rw [at_setFile w b' bx pl' _ hb]
    split
    · rename_i he
      obtain ⟨rfl, rfl⟩ := he
      rw [at_some hb, hn] at h
      simp at h
    · exact h
  | fresh b' bx pl' n hop' hb hn =>
    show (w.setFile b' bx pl' (some w.next)).at b pl = some i
    rw [at_setFile w b' bx pl' _ hb]
    split
    · rename_i he
      obtain ⟨rfl, rfl⟩ := he
      rw [at_some hb, hn] at h
      simp at h
    · exact h
  | gone b' bx pl' hop' hb hr =>
    rw [at_setFile w b' bx pl' _ hb]
    split
    · rename_i he
      obtain ⟨rfl, rfl⟩ := he
      exact absurd hop' hu
    · exact h
  | change | mode | same | stored | removed => exact h

/-- There are no files at a place that no operation is about. -/
theorem Step.at_none {w w' : World} {op : Op} (st : Step w op w') (b : Nat) (pl : Place)
    (h : w.at b pl = none) (hop : op.place? ≠ some (b, pl)) : w'.at b pl = none := by
  cases hx : w'.at b pl with
  | none => rfl
  | some i =>
    rcases st.at_cases b pl i hx with h' | ⟨h', -⟩ | ⟨key, h', -⟩
    · rw [h] at h'; simp at h'
    · exact absurd h' hop
    · subst h'; simp [Op.place?] at hop

theorem Step.inv {w w' : World} {op : Op} (st : Step w op w') (hI : Inv w) : Inv w' := by
  have hused : ∀ b pl i, w'.at b pl = some i → i < w'.next := by
    intro b pl i h
    have hle : w.next ≤ w'.next := by
      cases st <;> simp [World.setFile]
    rcases st.at_cases b pl i h with h' | ⟨-, rfl, h', -⟩ | ⟨key, -, h', -⟩
    · exact Nat.lt_of_lt_of_le (hI.used b pl i h') hle
    · omega
    · exact Nat.lt_of_lt_of_le (hI.stored key i h').1 hle
  have hsh : ∀ b pl b' pl' i, w'.at b pl = some i → w'.at b' pl' = some i →
      (b = b' ∧ pl = pl') ∨ ∃ key, w'.store key = some i := by
    intro b pl b' pl' i h h'
    have old : w.at b pl = some i → w.at b' pl' = some i → (b = b' ∧ pl = pl') ∨ ∃ key, w'.store key = some i := by
      intro h1 h2
      rcases hI.shared b pl b' pl' i h1 h2 with h | ⟨key, hk⟩
      · exact Or.inl h
      · right
        cases st with
        | stored key' c hop hk' =>
          refine ⟨key, ?_⟩
          have : key ≠ key' := by rintro rfl; rw [hk'] at hk; simp at hk
          simp [upd, this, hk]
        | removed key' j hop hk' hu =>
          refine ⟨key, ?_⟩
          have : key ≠ key' := by
            rintro rfl
            rw [hk'] at hk
            simp only [Option.some.injEq] at hk
            subst hk
            exact hu b pl h1
          simp [upd, this, hk]
        | boxes | hard | fresh | gone | change | mode | same => exact ⟨key, hk⟩
    rcases st.at_cases b pl i h with h1 | ⟨p1, e1, n1, s1⟩ | ⟨key, -, h1, s1⟩
    · rcases st.at_cases b' pl' i h' with h2 | ⟨p2, e2, n2, s2⟩ | ⟨key, -, h2, s2⟩
      · exact old h1 h2
      · have := hI.used b pl i h1
        omega
      · exact Or.inr ⟨key, by rw [s2]; exact h2⟩
    · rcases st.at_cases b' pl' i h' with h2 | ⟨p2, e2, n2, s2⟩ | ⟨key, -, h2, s2⟩
      · have := hI.used b' pl' i h2
        omega
      · rw [p1] at p2
        simp only [Option.some.injEq, Prod.mk.injEq] at p2
        exact Or.inl p2
      · exact Or.inr ⟨key, by rw [s2]; exact h2⟩
    · exact Or.inr ⟨key, by rw [s1]; exact h1⟩
  cases st with
  | boxes | hard | gone | same => exact ⟨hI.stored, hI.inj, hused, hsh⟩
  | fresh b bx pl n hop hb hn =>
    refine ⟨fun key i hk => ?_, hI.inj, hused, hsh⟩
    have := hI.stored key i hk
    refine ⟨Nat.lt_succ_of_lt this.1, ?_⟩
    show (upd w.inode w.next n i).write = false
    rw [upd_ne _ _ _ _ (by omega)]
    exact this.2
  | change b pl i n hop hi hw =>
    refine ⟨fun key j hk => ?_, hI.inj, hused, hsh⟩
    have := hI.stored key j hk
    refine ⟨this.1, ?_⟩
    show (upd w.inode i n j).write = false
    rw [upd_ne _ _ _ _ (by rintro rfl; rw [hw] at this; simp at this)]
    exact this.2
  | mode b pl x i hop hi =>
    refine ⟨fun key j hk => ?_, hI.inj, hused, hsh⟩
    have := hI.stored key j hk
    refine ⟨this.1, ?_⟩
    show (upd w.inode i _ j).write = false
    unfold upd
    split
    · rfl
    · exact this.2
  | stored key c hop hk =>
    refine ⟨fun key' j hk' => ?_, fun k k' j h1 h2 => ?_, hused, hsh⟩
    · simp only [upd] at hk'
      split at hk'
      · simp only [Option.some.injEq] at hk'
        subst hk'
        exact ⟨Nat.lt_succ_self _, by simp [upd]⟩
      · have := hI.stored key' j hk'
        refine ⟨Nat.lt_succ_of_lt this.1, ?_⟩
        show (upd w.inode w.next _ j).write = false
        rw [upd_ne _ _ _ _ (by omega)]
        exact this.2
    · simp only [upd] at h1 h2
      split at h1 <;> split at h2
      · rename_i e1 e2; rw [e1, e2]
      · simp only [Option.some.injEq] at h1
        have := (hI.stored k' j h2).1
        omega
      · simp only [Option.some.injEq] at h2
        have := (hI.stored k j h1).1
        omega
      · exact hI.inj k k' j h1 h2
  | removed key i hop hk hu =>
    refine ⟨fun key' j hk' => ?_, fun k k' j h1 h2 => ?_, hused, hsh⟩
    · simp only [upd] at hk'
      split at hk'
      · simp at hk'
      · rename_i hne
        have := hI.stored key' j hk'
        refine ⟨this.1, ?_⟩
        show (upd w.inode i _ j).write = false
        rw [upd_ne _ _ _ _ (by rintro rfl; exact hne (hI.inj _ _ _ hk' hk))]
        exact this.2
    · simp only [upd] at h1 h2
      split at h1
      · simp at h1
      · split at h2
        · simp at h2
        · exact hI.inj k k' j h1 h2

/-- A file that cannot be written keeps its content, whatever else happens, and cannot become writable. -/
theorem Step.keep_ro {w w' : World} {op : Op} (st : Step w op w') (hI : Inv w) (b : Nat) (pl : Place) (i : Nat)
    (h : w.at b pl = some i) (hw : (w.inode i).write = false) :
    (w'.inode i).content = (w.inode i).content ∧ (w'.inode i).write = false := by
  have hlt := hI.used b pl i h
  cases st with
  | boxes | hard | gone | same => exact ⟨rfl, hw⟩
  | fresh b' bx pl' n hop hb hn =>
    show (upd w.inode w.next n i).content = _ ∧ (upd w.inode w.next n i).write = false
    rw [upd_ne _ _ _ _ (by omega)]
    exact ⟨rfl, hw⟩
  | change b' pl' j n hop hj hjw =>
    show (upd w.inode j n i).content = _ ∧ (upd w.inode j n i).write = false
    rw [upd_ne _ _ _ _ (by rintro rfl; rw [hw] at hjw; simp at hjw)]
    exact ⟨rfl, hw⟩
  | mode b' pl' x j hop hj =>
    show (upd w.inode j _ i).content = _ ∧ (upd w.inode j _ i).write = false
    unfold upd
    split
    · rename_i e; subst e; exact ⟨rfl, rfl⟩
    · exact ⟨rfl, hw⟩
  | stored key c hop hk =>
    show (upd w.inode w.next _ i).content = _ ∧ (upd w.inode w.next _ i).write = false
    rw [upd_ne _ _ _ _ (by omega)]
    exact ⟨rfl, hw⟩
  | removed key j hop hk hu =>
    show (upd w.inode j _ i).content = _ ∧ (upd w.inode j _ i).write = false
    rw [upd_ne _ _ _ _ (by rintro rfl; exact hu b pl h)]
    exact ⟨rfl, hw⟩

/-- A file that can be written is changed only by the operations about it. -/
theorem Step.keep_rw {w w' : World} {op : Op} (st : Step w op w') (hI : Inv w) (b : Nat) (pl : Place) (i : Nat)
    (h : w.at b pl = some i) (hw : (w.inode i).write = true) (hop : op.place? ≠ some (b, pl)) :
    w'.inode i = w.inode i := by
  have hlt := hI.used b pl i h
  have excl : ∀ b' pl', w.at b' pl' = some i → b = b' ∧ pl = pl' := by
    intro b' pl' h'
    rcases hI.shared b pl b' pl' i h h' with h | ⟨key, hk⟩
    · exact h
    · have := (hI.stored key i hk).2
      rw [hw] at this
      simp at this
  cases st with
  | boxes | hard | gone | same => rfl
  | fresh b' bx pl' n hop' hb hn => exact upd_ne _ _ _ _ (by omega)
  | change b' pl' j n hop' hj hjw =>
    refine upd_ne _ _ _ _ ?_
    rintro rfl
    obtain ⟨rfl, rfl⟩ := excl _ _ hj
    exact hop hop'
  | mode b' pl' x j hop' hj =>
    refine upd_ne _ _ _ _ ?_
    rintro rfl
    obtain ⟨rfl, rfl⟩ := excl _ _ hj
    subst hop'
    exact hop rfl
  | stored key c hop' hk => exact upd_ne _ _ _ _ (by omega)
  | removed key j hop' hk hu => exact upd_ne _ _ _ _ (by rintro rfl; exact hu b pl h)

/-- The content of a file of the store does not change. -/
theorem Step.keep_store {w w' : World} {op : Op} (st : Step w op w') (hI : Inv w) (key : FileStoreKey) (c : Bytes)
    (h : w.content key = some c) (hop : op ≠ .removeFile key) : w'.content key = some c := by
  unfold World.content at h ⊢
  cases hk : w.store key with
  | none => simp [hk] at h
  | some i =>
    simp only [hk, Option.map_some, Option.some.injEq] at h
    obtain ⟨hlt, hw⟩ := hI.stored key i hk
    cases st with
    | boxes | hard | gone | same => simp [hk, h, World.setFile]
    | fresh b' bx pl' n hop' hb hn =>
      simp only [World.setFile, hk, Option.map_some]
      rw [upd_ne _ _ _ _ (by omega), h]
    | change b' pl' j n hop' hj hjw =>
      simp only [hk, Option.map_some]
      rw [upd_ne _ _ _ _ (by rintro rfl; rw [hw] at hjw; simp at hjw), h]
    | mode b' pl' x j hop' hj =>
      simp only [hk, Option.map_some]
      unfold upd
      split
      · rename_i e; subst e; simp [h]
      · simp [h]
    | stored key' c' hop' hk' =>
      have hne : key ≠ key' := by rintro rfl; rw [hk'] at hk; simp at hk
      simp only [upd, hne, if_false, hk, Option.map_some]
      rw [if_neg (by omega), h]
    | removed key' j hop' hk' hu =>
      have hne : key ≠ key' := by rintro rfl; exact hop hop'
      simp only [upd, hne, if_false, hk, Option.map_some]
      rw [if_neg (by rintro rfl; exact hne (hI.inj _ _ _ hk hk')), h]

/-! ## Runs -/

theorem Run.append {P : World → Op → Prop} {w w₁ w₂ : World} {h h' : List Op} (h1 : Run P w h w₁)
    (h2 : Run P w₁ h' w₂) : Run P w (h ++ h') w₂ := by
  induction h1 with
  | nil => exact h2
  | cons ha hp he _ ih => exact .cons ha hp he (ih h2)

theorem Run.split {P : World → Op → Prop} {w w₂ : World} {h h' : List Op} (hr : Run P w (h ++ h') w₂) :
    ∃ w₁, Run P w h w₁ ∧ Run P w₁ h' w₂ := by
  induction h generalizing w with
  | nil => exact ⟨w, .nil w, hr⟩
  | cons op h ih =>
    cases hr with
    | cons ha hp he hr =>
      obtain ⟨w₁, h1, h2⟩ := ih hr
      exact ⟨w₁, .cons ha hp he h1, h2⟩

/-- Something that each operation keeps is kept. -/
theorem Run.keep {w w' : World} {h : List Op} (hr : Run Polite w h w') (J : World → Prop) (hI : Inv w) (hJ : J w)
    (hs : ∀ w w' op, op ∈ h → Inv w → Step w op w' → J w → J w') : Inv w' ∧ J w' := by
  induction hr with
  | nil => exact ⟨hI, hJ⟩
  | cons ha hp he _ ih =>
    have st := step_of ha hp he
    exact ih (st.inv hI) (hs _ _ _ List.mem_cons_self hI st hJ) (fun w w' op hm => hs w w' op (List.mem_cons_of_mem _ hm))

theorem Run.inv {w w' : World} {h : List Op} (hr : Run Polite w h w') (hI : Inv w) : Inv w' :=
  (hr.keep (fun _ => True) hI trivial (fun _ _ _ _ _ _ _ => trivial)).1

theorem Run.content_keep {w w' : World} {h : List Op} (hr : Run Polite w h w') (hI : Inv w) {key : FileStoreKey}
    {c : Bytes} (hc : w.content key = some c) (hn : Op.removeFile key ∉ h) : w'.content key = some c := by
  refine (hr.keep (fun w => w.content key = some c) hI hc ?_).2
  intro w w' op hm hI st hJ
  exact st.keep_store hI key c hJ (by rintro rfl; exact hn hm)

theorem Run.at_none {w w' : World} {h : List Op} (hr : Run Polite w h w') (hI : Inv w) {b : Nat} {pl : Place}
    (h0 : w.at b pl = none) (hn : ∀ op ∈ h, op.place? ≠ some (b, pl)) : w'.at b pl = none := by
  refine (hr.keep (fun w => w.at b pl = none) hI h0 ?_).2
  intro w w' op hm hI st hJ
  exact st.at_none b pl hJ (hn op hm)

/-- A file that cannot be written. -/
def HasRO (w : World) (b : Nat) (pl : Place) (c : Bytes) : Prop :=
  ∃ i, w.at b pl = some i ∧ (w.inode i).content = c ∧ (w.inode i).write = false

theorem Run.keep_ro {w w' : World} {h : List Op} (hr : Run Polite w h w') (hI : Inv w) {b : Nat} {pl : Place}
    {c : Bytes} (h0 : HasRO w b pl c)
    (hn : ∀ op ∈ h, ¬ (op.box? = some b ∧ op.place? = none) ∧ op ≠ .unlink b pl) : HasRO w' b pl c := by
  refine (hr.keep (fun w => HasRO w b pl c) hI h0 ?_).2
  rintro w w' op hm hI st ⟨i, hi, hc, hw⟩
  have := st.keep_ro hI b pl i hi hw
  exact ⟨i, st.at_keep b pl i hi (hn op hm).1 (hn op hm).2, this.1.trans hc, this.2⟩

theorem Run.keep_rw {w w' : World} {h : List Op} (hr : Run Polite w h w') (hI : Inv w) {b : Nat} {pl : Place}
    {n : Inode} (h0 : w.file b pl = some n) (hw : n.write = true)
    (hn : ∀ op ∈ h, ¬ (op.box? = some b ∧ op.place? = none) ∧ op.place? ≠ some (b, pl)) :
    w'.file b pl = some n := by
  refine (hr.keep (fun w => w.file b pl = some n) hI h0 ?_).2
  intro w w' op hm hI st hJ
  unfold World.file at hJ ⊢
  cases hi : w.at b pl with
  | none => simp [hi] at hJ
  | some i =>
    simp only [hi, Option.map_some, Option.some.injEq] at hJ
    have h1 := st.at_keep b pl i hi (hn op hm).1 (by rintro rfl; exact (hn _ hm).2 rfl)
    rw [h1, Option.map_some, st.keep_rw hI b pl i hi (by rw [hJ]; exact hw) (hn op hm).2, hJ]

end TM.Sandbox
