import Verif.Sandbox.Props
/-!
# The files of the sandboxes and of the store while programs run

C83 (the executable bit), C84 and C85.
-/
namespace TM.Sandbox
open TM

/-! ## Read only sandboxes -/

/-- All the sandboxes are read only. -/
def AllReadOnly (w : World) : Prop := ∀ b bx, w.box b = some bx → bx.readOnly = true

theorem setFile_readOnly {w : World} (h : AllReadOnly w) {b : Nat} {bx : Box} {pl : Place} {i : Option Nat}
    (hb : w.box b = some bx) : AllReadOnly (w.setFile b bx pl i) := by
  intro b' bx' hb'
  simp only [World.setFile, upd] at hb'
  split at hb'
  · simp only [Option.some.injEq] at hb'
    subst hb'
    exact h b bx hb
  · exact h b' bx' hb'

theorem apply_readOnly {w w' : World} {op : Op} (h : AllReadOnly w) (ha : op.apply w = some w')
    (hs : ∀ b ro, op = .start b ro → ro = true) : AllReadOnly w' ∧ Polite w op := by
  cases op with
  | start b ro =>
    refine ⟨?_, trivial⟩
    simp only [Op.apply] at ha
    split at ha
    · simp at ha
    · simp only [Option.some.injEq] at ha
      subst ha
      intro b' bx' hb'
      simp only [upd] at hb'
      split at hb'
      · simp only [Option.some.injEq] at hb'
        subst hb'
        exact hs b ro rfl
      · exact h b' bx' hb'
  | progChmod b pl wr x =>
    simp only [Op.apply] at ha
    split at ha
    · simp at ha
    · rename_i bx hb
      rw [if_pos (h b bx hb)] at ha
      simp at ha
  | finish b =>
    refine ⟨?_, trivial⟩
    simp only [Op.apply, Option.some.injEq] at ha
    subst ha
    intro b' bx' hb'
    simp only [upd] at hb'
    split at hb'
    · simp at hb'
    · exact h b' bx' hb'
  | link b pl key =>
    refine ⟨?_, trivial⟩
    simp only [Op.apply] at ha
    split at ha
    · rename_i i bx hk hb
      split at ha
      · split at ha
        · simp only [Option.some.injEq] at ha; subst ha; exact h
        · simp at ha
      · split at ha
        · simp only [Option.some.injEq] at ha; subst ha; exact setFile_readOnly h hb
        · simp only [Option.some.injEq] at ha; subst ha; exact setFile_readOnly h hb
    · simp at ha
  | chmod b pl x =>
    refine ⟨?_, trivial⟩
    simp only [Op.apply] at ha
    split at ha
    · simp only [Option.some.injEq] at ha; subst ha; exact h
    · simp at ha
  | touch b pl =>
    refine ⟨?_, trivial⟩
    simp only [Op.apply] at ha
    split at ha
    · simp at ha
    · rename_i bx hb
      split at ha
      · split at ha
        · simp only [Option.some.injEq] at ha; subst ha; exact h
        · simp at ha
      · simp only [Option.some.injEq] at ha; subst ha; exact setFile_readOnly h hb
  | write b pl c =>
    refine ⟨?_, trivial⟩
    simp only [Op.apply] at ha
    split at ha
    · split at ha
      · simp only [Option.some.injEq] at ha; subst ha; exact h
      · simp at ha
    · simp at ha
  | create b pl =>
    refine ⟨?_, trivial⟩
    simp only [Op.apply] at ha
    split at ha
    · simp at ha
    · rename_i bx hb
      split at ha
      · simp only [Option.some.injEq] at ha; subst ha; exact setFile_readOnly h hb
      · simp at ha
  | unlink b pl =>
    refine ⟨?_, trivial⟩
    simp only [Op.apply] at ha
    split at ha
    · simp at ha
    · rename_i bx hb
      split at ha
      · simp at ha
      · simp only [Option.some.injEq] at ha; subst ha; exact setFile_readOnly h hb
  | storeFile key c =>
    refine ⟨?_, trivial⟩
    simp only [Op.apply] at ha
    split at ha
    · simp only [Option.some.injEq] at ha; subst ha; exact h
    · simp only [Option.some.injEq] at ha; subst ha; exact h
  | removeFile key =>
    refine ⟨?_, trivial⟩
    simp only [Op.apply] at ha
    split at ha
    · simp at ha
    · simp only [Option.some.injEq] at ha; subst ha; exact h

/-- If all the sandboxes are read only, programs cannot be impolite. -/
theorem polite_of_readOnly {w w' : World} {h : List Op} (hr : Run (fun _ _ => True) w h w') (hw : AllReadOnly w)
    (hs : ∀ b ro, Op.start b ro ∈ h → ro = true) : Run Polite w h w' := by
  induction hr with
  | nil => exact .nil _
  | cons ha hp he _ ih =>
    obtain ⟨h1, h2⟩ := apply_readOnly hw he (fun b ro e => hs b ro (e ▸ List.mem_cons_self))
    exact .cons ha h2 he (ih h1 (fun b ro hm => hs b ro (List.mem_cons_of_mem _ hm)))

/-! ## C84 -/

/-- **C84** (what is missing: programs that may change the mode of files and do it for files they may not write, see
`store_changed_by_program`) A file that has been put in the store and has not been removed from it has the content
it was stored with: whatever sandboxes were made, whatever the programs in them did. -/
theorem store_unchanged_partial {lk : Bool} {h₁ h₂ : List Op} {w : World} {key : FileStoreKey} {c : Bytes}
    (hr : Run Polite (World.init lk) (h₁ ++ .storeFile key c :: h₂) w)
    (hfirst : ∀ c', Op.storeFile key c' ∉ h₁) (hkeep : Op.removeFile key ∉ h₂) : w.content key = some c := by
  obtain ⟨w1, r1, r2⟩ := hr.split
  have hI := r1.inv (inv_init lk)
  have hnone : w1.store key = none := by
    have := r1.keep (fun w => w.store key = none) (inv_init lk) rfl ?_
    · exact this.2
    · intro w w' op hm hI st hJ
      cases st with
      | stored key' c' hop hk =>
        have : key ≠ key' := by rintro rfl; subst hop; exact hfirst c' hm
        simp [upd, this, hJ]
      | removed key' i hop hk hu =>
        simp only [upd]
        split
        · rfl
        · exact hJ
      | boxes | hard | fresh | gone | change | mode | same => exact hJ
  cases r2 with
  | cons ha hp he r3 =>
    have st := step_of ha hp he
    refine r3.content_keep (st.inv hI) ?_ hkeep
    simp only [Op.apply, hnone, Option.some.injEq] at he
    subst he
    simp [World.content, upd]

/-- **C84** If all the sandboxes are read only (so it is for everything but the compilations and the executions that
ask for it) nothing has to be asked to the programs. -/
theorem store_unchanged_read_only {lk : Bool} {h₁ h₂ : List Op} {w : World} {key : FileStoreKey} {c : Bytes}
    (hr : Run (fun _ _ => True) (World.init lk) (h₁ ++ .storeFile key c :: h₂) w)
    (hro : ∀ b ro, Op.start b ro ∈ h₁ ++ .storeFile key c :: h₂ → ro = true)
    (hfirst : ∀ c', Op.storeFile key c' ∉ h₁) (hkeep : Op.removeFile key ∉ h₂) : w.content key = some c :=
  store_unchanged_partial (polite_of_readOnly hr (fun b bx hb => by simp [World.init] at hb) hro) hfirst hkeep

example : Run Polite (World.init true) ([] ++ .storeFile (k 10) [5] :: (.storeFile (k 30) [6, 6] :: exampleHistory)) exampleEnd ∧
    exampleEnd.content (k 10) = some [5] := by
  refine ⟨run_after (fun w op hop => simple_ok (List.all_eq_true.1 (?_ : List.all _ Op.simple = true) op hop) w) rfl, ?_⟩
  · decide
  · decide +kernel

/-- A history in which a program that is not in a read only sandbox changes the mode of its input and writes it. -/
def spoilHistory : List Op :=
  [.storeFile (k 10) [5], .start 0 false, .link 0 (.file "a") (k 10), .chmod 0 (.file "a") false,
   .progChmod 0 (.file "a") true false, .write 0 (.file "a") [9], .finish 0]

/-- **C84** is not true of all the programs: a program in a sandbox that is not read only may change the content of a
file of the store.  The file is then given with the wrong content to all the executions that have it as input. -/
theorem store_changed_by_program : ∃ h w, Run (fun _ _ => True) (World.init true) h w ∧
    Op.storeFile (k 10) [5] ∈ h ∧ (∀ op ∈ h, op.simple = true ∨ op.box? = some 0) ∧
    w.content (k 10) = some [9] := by
  refine ⟨spoilHistory, ((World.init true).after spoilHistory).getD (World.init true), run_after ?_ rfl, ?_, ?_, ?_⟩
  · intro w op hop
    simp only [spoilHistory, List.mem_cons, List.not_mem_nil, or_false] at hop
    rcases hop with rfl | rfl | rfl | rfl | rfl | rfl | rfl <;> exact ⟨trivial, trivial⟩
  · decide
  · decide
  · decide +kernel

/-- If the store is in another file system, so that files are copied, it cannot. -/
example : (((World.init false).after spoilHistory).getD (World.init false)).content (k 10) = some [5] := by decide +kernel

/-! ## The executable bit -/

/-- The file at a place is read only, with this executable bit. -/
def HasX (w : World) (b : Nat) (pl : Place) (x : Bool) : Prop :=
  ∃ i, w.at b pl = some i ∧ (w.inode i).exec = x ∧ (w.inode i).write = false

/-- Names of files of the store come from links. -/
def Linked (L : Nat → Place → FileStoreKey → Prop) (w : World) : Prop :=
  ∀ b pl key i, w.at b pl = some i → w.store key = some i → L b pl key

theorem Step.linked {w w' : World} {op : Op} (st : Step w op w') (hI : Inv w) {L : Nat → Place → FileStoreKey → Prop}
    (hL : Linked L w) (hop : ∀ b pl key, op = .link b pl key → L b pl key) : Linked L w' := by
  intro b pl key i hi hk
  rcases st.at_cases b pl i hi with h | ⟨p, e, n, s⟩ | ⟨key', e, h, s⟩
  · cases st with
    | stored key' c hop' hk' =>
      simp only [upd] at hk
      split at hk
      · simp only [Option.some.injEq] at hk
        have := hI.used b pl i h
        omega
      · exact hL b pl key i h hk
    | removed key' j hop' hk' hu =>
      simp only [upd] at hk
      split at hk
      · simp at hk
      · exact hL b pl key i h hk
    | boxes | hard | fresh | gone | change | mode | same => exact hL b pl key i h hk
  · rw [s] at hk
    have := (hI.stored key i hk).1
    omega
  · rw [s] at hk
    have := hI.inj _ _ _ hk h
    subst this
    exact hop b pl key e

theorem Step.keep_x {w w' : World} {op : Op} (st : Step w op w') (hI : Inv w) {L : Nat → Place → FileStoreKey → Prop}
    (hL : Linked L w) {flag : FileStoreKey → Bool}
    (hflag : ∀ b pl key x, L b pl key → op = .chmod b pl x → x = flag key) {b : Nat} {pl : Place} {x : Bool}
    (hx : ∀ key, L b pl key → x = flag key) (hself : op.place? ≠ some (b, pl))
    (hpl : ¬ (op.box? = some b ∧ op.place? = none)) (h : HasX w b pl x) : HasX w' b pl x := by
  obtain ⟨i, hi, he, hw⟩ := h
  have hat := st.at_keep b pl i hi hpl (by rintro rfl; exact hself rfl)
  have hwr := (st.keep_ro hI b pl i hi hw).2
  refine ⟨i, hat, ?_, hwr⟩
  have hlt := hI.used b pl i hi
  cases st with
  | boxes | hard | gone | same => exact he
  | fresh b' bx pl' n hop hb hn => show (upd w.inode w.next n i).exec = x; rw [upd_ne _ _ _ _ (by omega)]; exact he
  | change b' pl' j n hop hj hjw =>
    show (upd w.inode j n i).exec = x
    rw [upd_ne _ _ _ _ (by rintro rfl; rw [hw] at hjw; simp at hjw)]
    exact he
  | mode b' pl' x' j hop hj =>
    show (upd w.inode j _ i).exec = x
    by_cases e : i = j
    · subst e
      rw [upd_self]
      show x' = x
      rcases hI.shared b pl b' pl' i hi hj with ⟨rfl, rfl⟩ | ⟨key, hk⟩
      · subst hop; exact absurd rfl hself
      · rw [hx key (hL b pl key i hi hk), hflag b' pl' key x' (hL b' pl' key i hj hk) hop]
    · rw [upd_ne _ _ _ _ e]; exact he
  | stored key c hop hk => show (upd w.inode w.next _ i).exec = x; rw [upd_ne _ _ _ _ (by omega)]; exact he
  | removed key j hop hk hu =>
    show (upd w.inode j _ i).exec = x
    rw [upd_ne _ _ _ _ (by rintro rfl; exact hu b pl hi)]
    exact he

/-- **C83** (what is missing: files that are executables in a sandbox and plain inputs in another, see
`executable_bit_lost`) If every file of the store is always given as executable or never, when a sandbox has been
prepared the input files have the executable bit that the execution asks for, and the standard input is not executable. -/
theorem executable_bit_partial {lk : Bool} {h₀ h : List Op} {w₀ w : World} (hr₀ : Run Polite (World.init lk) h₀ w₀)
    (hr : Run Polite w₀ h w) {b : Nat} {e : Execution} {deps : FileUuid → Option FileStoreKey} {ops : List Op}
    (hops : setupOps b e deps = some ops) (hf : h.filter (fun op => decide (op.box? = some b)) = ops)
    (hin : e.inputs.Wf) (hout : e.outputs.Wf) {content : FileUuid → Bytes}
    (hd : ∀ f ∈ e.dependencies, ∀ key, deps f = some key →
      w₀.content key = some (content f) ∧ Op.removeFile key ∉ h)
    {flag : FileStoreKey → Bool}
    (hflag : ∀ b pl key x, Op.link b pl key ∈ h₀ ++ h → Op.chmod b pl x ∈ h₀ ++ h → x = flag key) :
    (∀ p i, e.inputs.get? p = some i → w.file b (.file p) = some ⟨content i.file, false, i.executable⟩) ∧
    (∀ f, e.stdin = some f → w.file b .stdin = some ⟨content f, false, false⟩) := by
  have hI0 := hr₀.inv (inv_init lk)
  have hall := sandbox_files_exact hr₀ hr hops hf hin hout hd
  obtain ⟨sin, ins, h1, h2, h3⟩ := setupOps_parts hops
  -- the names of the files of the store
  let L : Nat → Place → FileStoreKey → Prop := fun b pl key => Op.link b pl key ∈ h₀ ++ h
  have hL0 : Linked L w₀ := by
    refine (hr₀.keep (Linked L) (inv_init lk) (fun b pl key i hi => by simp [World.init, World.at] at hi) ?_).2
    intro w w' op hm hI st hJ
    exact st.linked hI hJ (by rintro b pl key rfl; exact List.mem_append_left _ hm)
  -- a place with one link and one mode
  have main : ∀ pl key x t, (∀ op ∈ ops.tail, Plain b op) → ops.filter (Op.on b pl) = .link b pl key :: .chmod b pl x :: t →
      (∀ op ∈ t, op.place? ≠ some (b, pl)) → HasX w b pl x := by
    intro pl key x t hplain hfil ht
    have hfh : h.filter (Op.on b pl) = .link b pl key :: .chmod b pl x :: t := by
      rw [← filter_on_about]
      exact (congrArg (List.filter (Op.on b pl)) hf).trans hfil
    obtain ⟨a₁, a₂, rfl, hn1, -, hr1⟩ := List.filter_eq_cons_iff.1 hfh
    obtain ⟨a₃, a₄, rfl, hn2, -, hr2⟩ := List.filter_eq_cons_iff.1 hr1
    have hlink : Op.link b pl key ∈ h₀ ++ (a₁ ++ Op.link b pl key :: (a₃ ++ Op.chmod b pl x :: a₄)) := by simp
    have hch : Op.chmod b pl x ∈ h₀ ++ (a₁ ++ Op.link b pl key :: (a₃ ++ Op.chmod b pl x :: a₄)) := by simp
    have hx : ∀ key', L b pl key' → x = flag key' := fun key' hl => hflag b pl key' x hl hch
    rw [show a₁ ++ Op.link b pl key :: (a₃ ++ Op.chmod b pl x :: a₄) =
      (a₁ ++ Op.link b pl key :: a₃) ++ (Op.chmod b pl x :: a₄) by simp] at hr hf
    obtain ⟨wm, r1, r2⟩ := hr.split
    have hIm := r1.inv hI0
    have hLm : Linked L wm := by
      refine (r1.keep (Linked L) hI0 hL0 ?_).2
      intro w w' op hm hI st hJ
      refine st.linked hI hJ ?_
      rintro b' pl' key' rfl
      simp only [List.mem_append, List.mem_cons] at hm
      simp only [L, List.mem_append, List.mem_cons]
      rcases hm with hm | hm | hm
      · exact .inr (.inl hm)
      · exact .inr (.inr (.inl hm))
      · exact .inr (.inr (.inr (.inl hm)))
    cases r2 with
    | cons ha hp he r3 =>
      rename_i w1
      have st := step_of ha hp he
      have hI1 := st.inv hIm
      have hL1 : Linked L w1 := st.linked hIm hLm (by intro b' pl' key' e; cases e)
      have h0x : HasX w1 b pl x := by
        simp only [Op.apply] at he
        split at he
        · rename_i i hi
          simp only [Option.some.injEq] at he
          subst he
          exact ⟨i, hi, by simp [upd], by simp [upd]⟩
        · simp at he
      have hplain4 : ∀ op ∈ a₄, Plain b op := by
        intro op hop
        by_cases hab : op.about b = true
        · -- it is one of the operations of the preparation
          rcases hp0 : op.place? with _ | q
          · exfalso
            -- a start or a finish of b after the link: not in the tail
            have hmem : op ∈ (a₁ ++ Op.link b pl key :: a₃ ++ Op.chmod b pl x :: a₄).filter (fun op => decide (op.box? = some b)) := by
              refine List.mem_filter.2 ⟨?_, hab⟩
              simp [hop]
            -- the operations of b after the chmod are in the tail of the preparation
            have hsuf : a₄.filter (fun op => decide (op.box? = some b)) <:+ ops := by
              rw [← hf, List.filter_append, List.filter_cons]
              simp only [Op.box?, decide_true, if_true]
              exact ⟨List.filter _ (a₁ ++ Op.link b pl key :: a₃) ++ [Op.chmod b pl x], by rw [List.append_assoc]; rfl⟩
            obtain ⟨pre, hpre⟩ := hsuf
            have hpre0 : pre ≠ [] := by
              rintro rfl
              rw [List.nil_append] at hpre
              have h5 : (a₁ ++ Op.link b pl key :: a₃ ++ Op.chmod b pl x :: a₄).filter (fun op => decide (op.box? = some b)) =
                a₄.filter (fun op => decide (op.box? = some b)) := hf.trans hpre.symm
              have h6 := congrArg List.length h5
              rw [List.filter_append, List.length_append, List.filter_cons] at h6
              simp only [Op.box?, decide_true, if_true, List.length_cons] at h6
              omega
            cases pre with
            | nil => exact hpre0 rfl
            | cons q pre =>
              have : op ∈ ops.tail := by
                rw [← hpre]
                exact List.mem_append_right _ (List.mem_filter.2 ⟨hop, hab⟩)
              exact (hplain op this).1 ⟨by simpa [Op.about] using hab, hp0⟩
          · refine ⟨by simp [hp0], ?_⟩
            rintro pl' rfl
            have hmem : Op.unlink b pl' ∈ ops := by
              rw [← hf]
              refine List.mem_filter.2 ⟨?_, hab⟩
              simp [hop]
            rw [h3] at hmem hplain
            simp only [List.mem_cons] at hmem
            rcases hmem with hmem | hmem
            · cases hmem
            · exact (hplain _ hmem).2 pl' rfl
        · have hb : op.box? ≠ some b := by simpa [Op.about] using hab
          refine ⟨fun h => hb h.1, ?_⟩
          rintro pl rfl
          simp [Op.box?] at hb
      have hfin := r3.keep (fun w => Linked L w ∧ HasX w b pl x) hI1 ⟨hL1, h0x⟩ ?_
      · exact hfin.2.2
      · rintro w w' op hm hI st ⟨hL, hX⟩
        have hmH : op ∈ h₀ ++ (a₁ ++ Op.link b pl key :: (a₃ ++ Op.chmod b pl x :: a₄)) := by simp [hm]
        refine ⟨st.linked hI hL (by rintro b' pl' key' rfl; exact hmH), st.keep_x hI hL ?_ hx ?_ (hplain4 op hm).1 hX⟩
        · rintro b' pl' key' x' hl rfl
          exact hflag b' pl' key' x' hl hmH
        · intro hp
          have hmt : op ∈ a₄.filter (Op.on b pl) := List.mem_filter.2 ⟨hm, by simp [Op.on, hp]⟩
          rw [hr2] at hmt
          exact ht op hmt hp
  have hplain : ∀ op ∈ ops.tail, Plain b op := by
    rw [h3] at hops ⊢
    exact plain_setup hops
  have hfilt : ∀ pl, ops.filter (Op.on b pl) = sin.filter (Op.on b pl) ++ (streamOps b .stdout e.stdout).filter (Op.on b pl) ++
      (streamOps b .stderr e.stderr).filter (Op.on b pl) ++ ins.filter (Op.on b pl) ++
      (e.outputs.map (fun p => Op.touch b (.file p.1))).filter (Op.on b pl) := by
    intro pl
    rw [h3, List.filter_cons]
    simp [Op.on, Op.place?]
  have fin : ∀ pl c x, (∃ x, w.file b pl = some ⟨c, false, x⟩) → HasX w b pl x → w.file b pl = some ⟨c, false, x⟩ := by
    rintro pl c x ⟨x', h'⟩ ⟨i, hi, hx, -⟩
    simp only [World.file, hi, Option.map_some, Option.some.injEq] at h' ⊢
    rw [h'] at hx ⊢
    simp only at hx
    rw [hx]
  refine ⟨?_, ?_⟩
  · intro p i hpi
    obtain ⟨key, hk, hfi⟩ := filter_inputOps h2 hin hpi
    refine fin _ _ _ (hall.1 p i hpi) (main _ key _ [] hplain ?_ (by simp))
    rw [hfilt, filter_stdinOps h1, filter_streamOps, filter_streamOps, hfi, filter_outputs_other]
    · simp [writeOps]
    · intro q hq
      simp only [Place.file.injEq] at hq
      subst hq
      exact hall.2.2.2.2.2.2.2 p (AMap.mem_keys_iff.2 ⟨i, hpi⟩)
  · intro f hfs
    have h1' := h1
    rw [hfs] at h1'
    simp only [stdinOps, Option.map_eq_some_iff] at h1'
    obtain ⟨key, hk, hsin⟩ := h1'
    refine fin _ _ _ (hall.2.2.2.1 f hfs) (main _ key _ [] hplain ?_ (by simp))
    rw [hfilt, ← hsin, filter_writeOps, filter_streamOps, filter_streamOps, filter_inputOps_other h2, filter_outputs_other]
    · simp [writeOps]
    · intro q hq; simp at hq
    · intro q hq; simp at hq

example : (∀ b pl key x, Op.link b pl key ∈ [.storeFile (k 10) [5], .storeFile (k 30) [6, 6]] ++ exampleHistory →
      Op.chmod b pl x ∈ [.storeFile (k 10) [5], .storeFile (k 30) [6, 6]] ++ exampleHistory → x = decide (key = k 30)) ∧
    exampleEnd.file 0 (.file "a") = some ⟨[6, 6], false, true⟩ := by
  refine ⟨?_, by decide +kernel⟩
  intro b pl key x h1 h2
  simp only [exampleHistory, List.cons_append, List.nil_append, List.mem_cons, reduceCtorEq, Op.link.injEq, Op.chmod.injEq,
    false_or, or_false, List.not_mem_nil] at h1 h2
  rcases h1 with ⟨rfl, rfl, rfl⟩ | ⟨rfl, rfl, rfl⟩ | ⟨rfl, rfl, rfl⟩ | ⟨rfl, rfl, rfl⟩ <;> revert h2 <;> cases x <;> decide

/-- A history in which the same file is given as executable in a sandbox and as plain input in another. -/
def lostHistory : List Op :=
  [.start 0 true, .link 0 (.file "a.py") (k 10), .chmod 0 (.file "a.py") true,
   .start 1 true, .link 1 (.file "lib.py") (k 10), .chmod 1 (.file "lib.py") false]

def lostStart : World := ((World.init true).after [.storeFile (k 10) [5]]).getD (World.init true)

def lostEnd : World := (lostStart.after lostHistory).getD (World.init true)

/-- **C83** is not true of the executable bit: a solution `a.py` that another solution imports, or has the same content
as a file it imports, may be found not executable when its sandbox is ready. -/
theorem executable_bit_lost : ∃ h w₀ w e, Run Polite (World.init true) [.storeFile (k 10) [5]] w₀ ∧ Run Polite w₀ h w ∧
    e.inputs.get? "a.py" = some ⟨1, true⟩ ∧
    setupOps 0 e (fun _ => some (k 10)) = some (h.filter (fun op => decide (op.box? = some 0))) ∧
    w.file 0 (.file "a.py") = some ⟨[5], false, false⟩ := by
  refine ⟨lostHistory, lostStart, lostEnd, { uuid := 0, inputs := [("a.py", ⟨1, true⟩)] },
    run_after (fun w op hop => simple_ok (List.all_eq_true.1 (?_ : List.all _ Op.simple = true) op hop) w) rfl,
    run_after (fun w op hop => simple_ok (List.all_eq_true.1 (?_ : List.all _ Op.simple = true) op hop) w) rfl,
    rfl, ?_, ?_⟩
  · decide
  · decide
  · decide +kernel
  · decide +kernel

/-! ## C85 -/

/-- What a program does. -/
def Op.ofProgram : Op → Bool
  | .write _ _ _ | .create _ _ | .unlink _ _ | .progChmod _ _ _ _ => true
  | _ => false

/-- What was written last in a file, if anything was. -/
def lastWritten (b : Nat) (pl : Place) (c : Bytes) (h : List Op) : Bytes :=
  ((h.filterMap (fun op => match op with
    | .write b' pl' c' => if b' = b ∧ pl' = pl then some c' else none
    | _ => none)).getLast?).getD c

theorem lastWritten_nil (b : Nat) (pl : Place) (c : Bytes) : lastWritten b pl c [] = c := rfl

theorem lastWritten_write (b : Nat) (pl : Place) (c c' : Bytes) (h : List Op) :
    lastWritten b pl c (.write b pl c' :: h) = lastWritten b pl c' h := by
  unfold lastWritten
  rw [List.filterMap_cons]
  simp only [and_self, if_true]
  rw [List.getLast?_cons]
  rfl

theorem lastWritten_other (b : Nat) (pl : Place) (c : Bytes) (op : Op) (h : List Op) (ho : ∀ c', op ≠ .write b pl c') :
    lastWritten b pl c (op :: h) = lastWritten b pl c h := by
  unfold lastWritten
  rw [List.filterMap_cons]
  cases op with
  | write b' pl' c' =>
    have : ¬ (b' = b ∧ pl' = pl) := by rintro ⟨rfl, rfl⟩; exact ho c' rfl
    simp [this]
  | start | link | chmod | touch | create | unlink | progChmod | finish | storeFile | removeFile => rfl

/-- A read only sandbox. -/
def IsRO (w : World) (b : Nat) : Prop := ∃ bx, w.box b = some bx ∧ bx.readOnly = true

theorem Step.isRO {w w' : World} {op : Op} (st : Step w op w') {b : Nat} (h : IsRO w b)
    (hop : ¬ (op.box? = some b ∧ op.place? = none)) : IsRO w' b := by
  obtain ⟨bx, hb, hr⟩ := h
  have set : ∀ b' bx' pl i, w.box b' = some bx' → IsRO (w.setFile b' bx' pl i) b := by
    intro b' bx' pl i hb'
    by_cases e : b = b'
    · subst e
      rw [hb] at hb'
      simp only [Option.some.injEq] at hb'
      subst hb'
      exact ⟨_, upd_self _ _ _, hr⟩
    · exact ⟨bx, (upd_ne _ _ _ _ e).trans hb, hr⟩
  cases st with
  | boxes b' bx' hop' hbx =>
    have : b ≠ b' := by rintro rfl; exact hop hop'
    exact ⟨bx, (upd_ne _ _ _ _ this).trans hb, hr⟩
  | hard b' bx' pl key i hop' hb' hn hk => exact set b' bx' pl _ hb'
  | fresh b' bx' pl n hop' hb' hn => exact set b' bx' pl _ hb'
  | gone b' bx' pl hop' hb' hr' => exact set b' bx' pl _ hb'
  | change | mode | same | stored | removed => exact ⟨bx, hb, hr⟩

/-- In a read only sandbox the only thing a program can do to the files is writing them. -/
theorem only_writes {w w' : World} {op : Op} {b : Nat} (h : IsRO w b) (he : op.apply w = some w')
    (hb : op.box? = some b) (hp : op.ofProgram = true) : ∃ pl c, op = .write b pl c := by
  obtain ⟨bx, hbx, hr⟩ := h
  cases op with
  | write b' pl c =>
    simp only [Op.box?, Option.some.injEq] at hb
    subst hb
    exact ⟨pl, c, rfl⟩
  | create b' pl =>
    simp only [Op.box?, Option.some.injEq] at hb
    subst hb
    simp [Op.apply, hbx, hr] at he
  | unlink b' pl =>
    simp only [Op.box?, Option.some.injEq] at hb
    subst hb
    simp [Op.apply, hbx, hr] at he
  | progChmod b' pl wr x =>
    simp only [Op.box?, Option.some.injEq] at hb
    subst hb
    simp [Op.apply, hbx, hr] at he
  | start | link | chmod | touch | finish | storeFile | removeFile => simp [Op.ofProgram] at hp

/-- **C85** While the program of a read only sandbox runs, together with anything else (the preparation of other
sandboxes and their programs, the use of the store): its sandbox has always the same files; those it may not write keep
their content; those it may write have what it wrote last in them, and nothing that others write. -/
theorem program_isolated {lk : Bool} {h₀ h : List Op} {w₀ w : World} (hr₀ : Run Polite (World.init lk) h₀ w₀)
    (hr : Run Polite w₀ h w) {b : Nat} (hro : IsRO w₀ b)
    (hprog : ∀ op ∈ h, op.box? = some b → op.ofProgram = true) (pl : Place) :
    (w₀.file b pl = none → w.file b pl = none) ∧
    (∀ c x, w₀.file b pl = some ⟨c, false, x⟩ → ∃ x', w.file b pl = some ⟨c, false, x'⟩) ∧
    (∀ c x, w₀.file b pl = some ⟨c, true, x⟩ → w.file b pl = some ⟨lastWritten b pl c h, true, x⟩) := by
  have hI := hr₀.inv (inv_init lk)
  clear hr₀
  induction hr with
  | nil => exact ⟨id, fun c x h => ⟨x, h⟩, fun c x h => h⟩
  | @cons w w₁ w₂ op h ha hp he hr ih =>
    have st := step_of ha hp he
    have hbox : ¬ (op.box? = some b ∧ op.place? = none) := by
      rintro ⟨h1, h2⟩
      obtain ⟨pl, c, rfl⟩ := only_writes hro he h1 (hprog op List.mem_cons_self h1)
      simp [Op.place?] at h2
    have hun : ∀ pl, op ≠ .unlink b pl := by
      rintro pl rfl
      obtain ⟨pl, c, h⟩ := only_writes hro he rfl (hprog _ List.mem_cons_self rfl)
      simp at h
    have hplace : op.place? = some (b, pl) → ∃ c, op = .write b pl c := by
      intro h1
      have h2 : op.box? = some b := by
        have := about_of_on (b := b) (pl := pl) (op := op) (by simp [Op.on, h1])
        simpa [Op.about] using this
      obtain ⟨pl', c, rfl⟩ := only_writes hro he h2 (hprog op List.mem_cons_self h2)
      simp only [Op.place?, Option.some.injEq, Prod.mk.injEq, true_and] at h1
      exact ⟨c, by rw [h1]⟩
    obtain ⟨i1, i2, i3⟩ := ih (st.isRO hro hbox) (fun o ho => hprog o (List.mem_cons_of_mem _ ho)) (st.inv hI)
    refine ⟨?_, ?_, ?_⟩
    · intro h0
      apply i1
      have h0' : w.at b pl = none := by simpa [World.file] using h0
      by_cases h1 : op.place? = some (b, pl)
      · obtain ⟨c, rfl⟩ := hplace h1
        simp [Op.apply, h0'] at he
      · simp [World.file, st.at_none b pl h0' h1]
    · intro c x h0
      cases hi : w.at b pl with
      | none => simp [World.file, hi] at h0
      | some i =>
        simp only [World.file, hi, Option.map_some, Option.some.injEq] at h0
        have h2 := st.keep_ro hI b pl i hi (by rw [h0])
        have h3 := st.at_keep b pl i hi hbox (hun pl)
        refine i2 c (w₁.inode i).exec ?_
        rw [h0] at h2
        simp only [World.file, h3, Option.map_some, Option.some.injEq]
        cases hn : w₁.inode i with
        | mk cc ww xx =>
          rw [hn] at h2
          simp only at h2 ⊢
          rw [h2.1, h2.2]
    · intro c x h0
      cases hi : w.at b pl with
      | none => simp [World.file, hi] at h0
      | some i =>
        have h0' := h0
        simp only [World.file, hi, Option.map_some, Option.some.injEq] at h0
        have h3 := st.at_keep b pl i hi hbox (hun pl)
        by_cases h1 : op.place? = some (b, pl)
        · obtain ⟨c', rfl⟩ := hplace h1
          rw [lastWritten_write]
          apply i3 c' x
          simp only [Op.apply, hi, h0, if_true, Option.some.injEq] at he
          subst he
          have h3' : w.at b pl = some i := hi
          simp only [World.file, h3, Option.map_some, upd_self]
        · rw [lastWritten_other _ _ _ _ _ (by rintro c' rfl; exact h1 rfl)]
          apply i3 c x
          simp only [World.file, h3, Option.map_some, st.keep_rw hI b pl i hi (by rw [h0]) h1, h0]

def progHistory : List Op :=
  [.write 0 (.file "o") [7], .start 3 true, .link 3 (.file "z") (k 10), .write 0 (.file "o") [7, 8],
   .touch 3 (.file "o"), .write 3 (.file "o") [1], .finish 3]

example : IsRO exampleEnd 0 ∧ exampleEnd.file 0 (.file "o") = some ⟨[], true, false⟩ ∧
    (∃ w, Run Polite exampleEnd progHistory w ∧ w.file 0 (.file "o") = some ⟨[7, 8], true, false⟩) ∧
    lastWritten 0 (.file "o") [] [.write 0 (.file "o") [7], .write 0 (.file "o") [7, 8], .write 3 (.file "o") [1]] = [7, 8] := by
  refine ⟨⟨_, rfl, rfl⟩, by decide +kernel, ⟨(exampleEnd.after progHistory).getD exampleEnd,
    run_after (fun w op hop => simple_ok (List.all_eq_true.1 (?_ : List.all _ Op.simple = true) op hop) w) rfl, ?_⟩, by decide⟩
  · decide
  · decide +kernel

/-- **C85** What happens in other sandboxes, read only or not, is not seen in a sandbox: which files there are, their
contents, which of them can be written. -/
theorem others_not_seen {lk : Bool} {h₀ h : List Op} {w₀ w : World} (hr₀ : Run Polite (World.init lk) h₀ w₀)
    (hr : Run Polite w₀ h w) {b : Nat} (hquiet : ∀ op ∈ h, op.box? ≠ some b) (pl : Place) :
    (w₀.file b pl).map (fun n => (n.content, n.write)) = (w.file b pl).map (fun n => (n.content, n.write)) := by
  have hI := hr₀.inv (inv_init lk)
  have hpl : ∀ op ∈ h, ∀ pl, op.place? ≠ some (b, pl) := by
    intro op hop pl h1
    have := about_of_on (b := b) (pl := pl) (op := op) (by simp [Op.on, h1])
    exact hquiet op hop (by simpa [Op.about] using this)
  have hbox : ∀ op ∈ h, ¬ (op.box? = some b ∧ op.place? = none) := fun op hop h1 => hquiet op hop h1.1
  have hun : ∀ op ∈ h, op ≠ .unlink b pl := by rintro op hop rfl; exact hquiet _ hop rfl
  cases hi : w₀.at b pl with
  | none =>
    have := hr.at_none hI hi (fun op hop => hpl op hop pl)
    simp [World.file, hi, this]
  | some i =>
    cases hw : (w₀.inode i).write with
    | false =>
      obtain ⟨j, h1, h2, h3⟩ := hr.keep_ro hI (c := (w₀.inode i).content) ⟨i, hi, rfl, hw⟩ (fun op hop => ⟨hbox op hop, hun op hop⟩)
      simp [World.file, hi, h1, h2, h3, hw]
    | true =>
      have h1 : w₀.file b pl = some (w₀.inode i) := by simp [World.file, hi]
      rw [hr.keep_rw hI h1 hw (fun op hop => ⟨hbox op hop, hpl op hop pl⟩), h1]

example : (∃ w, Run Polite exampleStart [.start 7 false, .link 7 (.file "x") (k 10), .unlink 7 (.file "x"), .create 7 (.file "x"),
      .write 7 (.file "x") [0]] w ∧ w.content (k 10) = some [5]) := by
  refine ⟨(exampleStart.after [.start 7 false, .link 7 (.file "x") (k 10), .unlink 7 (.file "x"), .create 7 (.file "x"),
      .write 7 (.file "x") [0]]).getD exampleEnd,
    run_after (fun w op hop => simple_ok (List.all_eq_true.1 (?_ : List.all _ Op.simple = true) op hop) w) rfl, ?_⟩
  · decide
  · decide +kernel

end TM.Sandbox
