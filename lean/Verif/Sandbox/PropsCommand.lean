import Verif.Sandbox.Command
/-!
# What the program is, and what it sees

C88: the program sees only the directories it is given and may write only in its own box.  C89: the program that is run
is the one asked for, with its arguments and its environment.
-/
namespace TM.Sandbox
open TM TM.Worker

theorem mem_mountDirs {h : Host} {p : Path} : ∀ {ds : List String} {mounted : List Path},
    p ∈ mountDirs h ds mounted ↔ p ∈ mounted ∨ ∃ d ∈ ds, p = .parse d ∧ h.isDir p = true
  | [], mounted => by simp [mountDirs]
  | d :: ds, mounted => by
    rw [mountDirs]
    split
    · rename_i hc
      rw [mem_mountDirs]
      rw [List.mem_append, List.mem_singleton]
      simp only [List.mem_cons, exists_eq_or_imp]
      constructor
      · rintro ((h1 | rfl) | h1)
        · exact .inl h1
        · exact .inr (.inl ⟨rfl, hc.2⟩)
        · exact .inr (.inr h1)
      · rintro (h1 | ⟨rfl, _⟩ | h1)
        · exact .inl (.inl h1)
        · exact .inl (.inr rfl)
        · exact .inr h1
    · rename_i hc
      rw [mem_mountDirs]
      simp only [List.mem_cons, exists_eq_or_imp]
      constructor
      · rintro (h1 | h1)
        · exact .inl h1
        · exact .inr (.inr h1)
      · rintro (h1 | ⟨rfl, h2⟩ | h1)
        · exact .inl h1
        · left
          by_cases hm : Path.parse d ∈ mounted
          · exact hm
          · exact absurd ⟨by simpa using hm, h2⟩ hc
        · exact .inr h1

theorem nodup_mountDirs {h : Host} : ∀ {ds : List String} {mounted : List Path}, mounted.Nodup →
    (mountDirs h ds mounted).Nodup
  | [], mounted, hn => hn
  | d :: ds, mounted, hn => by
    rw [mountDirs]
    split
    · rename_i hc
      refine nodup_mountDirs ?_
      rw [List.nodup_append]
      refine ⟨hn, by simp, ?_⟩
      intro a ha b hb
      simp only [List.mem_singleton] at hb
      subst hb
      rintro rfl
      exact hc.1 (by simpa using ha)
    · exact nodup_mountDirs hn

/-- The three directories that are not seen at their own path. -/
def fixedMounts (boxdir : Path) (fifo : Option Path) : List Mount :=
  ⟨boxdir.join ⟨false, ["box"]⟩, boxRoot, true⟩ :: ⟨boxdir.join ⟨false, ["etc"]⟩, ⟨true, ["etc"]⟩, true⟩ ::
    (match fifo with
    | some p => [⟨p, boxRoot.join ⟨false, fifoSandboxDir⟩, false⟩]
    | none => [])

theorem buildCommand_parts {h : Host} {e : Execution} {boxdir : Path} {fifo : Option Path} {c : Command}
    (hc : buildCommand h e boxdir fifo = some c) :
    ∃ dirs : List Path, c.mounts = fixedMounts boxdir fifo ++ dirs.map asIs ∧ dirs.Nodup ∧
      (∀ p, p ∈ dirs ↔ (∃ d ∈ readableDirs ++ e.limits.extraReadableDirs, p = .parse d ∧ h.isDir p = true) ∨
        (∃ cmd exe, e.command = .system cmd ∧ h.which cmd = some exe ∧ p = exe.parent)) ∧
      c.env = buildEnv h e ∧ c.args = e.args ∧ c.tmpfs = e.limits.mountTmpfs ∧ c.proc = e.limits.mountProc ∧
      c.uid = 1000 ∧ c.gid = 1000 ∧ c.cwd = boxRoot ∧
      (match e.command with
        | .system cmd => h.which cmd = some c.executable
        | .localCmd cmd => h.runnable ((boxdir.join ⟨false, ["box"]⟩).join (.parse cmd)) = true ∧
            c.executable = boxRoot.join (.parse cmd)) := by
  unfold buildCommand at hc
  have hd : ∀ p, p ∈ mountDirs h (readableDirs ++ e.limits.extraReadableDirs) [] ↔
      ∃ d ∈ readableDirs ++ e.limits.extraReadableDirs, p = .parse d ∧ h.isDir p = true := by
    intro p; rw [mem_mountDirs]; simp
  have hn : (mountDirs h (readableDirs ++ e.limits.extraReadableDirs) []).Nodup := nodup_mountDirs List.nodup_nil
  generalize mountDirs h (readableDirs ++ e.limits.extraReadableDirs) [] = dirs at hc hd hn
  cases hcmd : e.command with
  | system cmd =>
    simp only [hcmd] at hc
    cases hw : h.which cmd with
    | none => simp [hw] at hc
    | some exe =>
      simp only [hw, Option.some.injEq] at hc
      subst hc
      refine ⟨if dirs.contains exe.parent then dirs else dirs ++ [exe.parent], rfl, ?_, ?_, rfl, rfl, rfl, rfl, rfl, rfl, rfl, hw⟩
      · split
        · exact hn
        · rename_i hx
          rw [List.nodup_append]
          refine ⟨hn, by simp, ?_⟩
          intro a ha b hb
          simp only [List.mem_singleton] at hb
          subst hb
          rintro rfl
          exact hx (by simpa using ha)
      · intro p
        rw [← hd]
        have : (∃ cmd' exe', ExecutionCommand.system cmd = .system cmd' ∧ h.which cmd' = some exe' ∧ p = exe'.parent) ↔
            p = exe.parent := by
          constructor
          · rintro ⟨c', e', h1, h2, h3⟩
            cases h1
            rw [hw] at h2
            cases h2
            exact h3
          · intro h3; exact ⟨cmd, exe, rfl, hw, h3⟩
        rw [this]
        split
        · rename_i hx
          constructor
          · exact .inl
          · rintro (h1 | rfl)
            · exact h1
            · simpa using hx
        · simp
  | localCmd cmd =>
    simp only [hcmd] at hc
    split at hc
    · rename_i hr
      simp only [Option.some.injEq] at hc
      subst hc
      refine ⟨dirs, rfl, hn, ?_, rfl, rfl, rfl, rfl, rfl, rfl, rfl, hr, rfl⟩
      intro p
      rw [← hd]
      simp
    · cases hc

theorem mem_fixed {boxdir : Path} {fifo : Option Path} {m : Mount} (hm : m ∈ fixedMounts boxdir fifo) :
    (m = ⟨⟨boxdir.abs, boxdir.comps ++ ["box"]⟩, ⟨true, ["box"]⟩, true⟩) ∨
    (m = ⟨⟨boxdir.abs, boxdir.comps ++ ["etc"]⟩, ⟨true, ["etc"]⟩, true⟩) ∨
    (∃ f, fifo = some f ∧ m = ⟨f, ⟨true, ["box", "tm_pipes"]⟩, false⟩) := by
  unfold fixedMounts at hm
  simp only [List.mem_cons] at hm
  rcases hm with rfl | rfl | hm
  · left; simp [Path.join, boxRoot]
  · right; left; simp [Path.join]
  · right; right
    cases fifo with
    | none => simp at hm
    | some f =>
      simp only [List.mem_singleton] at hm
      exact ⟨f, rfl, by subst hm; simp [Path.join, boxRoot, fifoSandboxDir]⟩

/-- **C88** What the program may write, of the host, is in the directory of its own sandbox, seen as `/box` and `/etc`.
What it may only read is one of the fifos of its group, seen in `/box/tm_pipes`, or it is seen at its own path and it is in
one of the directories of the system, in one of those the execution asks for, or where the executable of the system
is. -/
theorem sees_only {h : Host} {e : Execution} {boxdir : Path} {fifo : Option Path} {c : Command}
    (hc : buildCommand h e boxdir fifo = some c) {p host : Path} {wr : Bool} (hs : Sees c.mounts p host wr) :
    (wr = true ∧ ∃ rest, (p = ⟨true, "box" :: rest⟩ ∧ host = ⟨boxdir.abs, boxdir.comps ++ "box" :: rest⟩) ∨
      (p = ⟨true, "etc" :: rest⟩ ∧ host = ⟨boxdir.abs, boxdir.comps ++ "etc" :: rest⟩)) ∨
    (wr = false ∧ ∃ f rest, fifo = some f ∧ p = ⟨true, "box" :: "tm_pipes" :: rest⟩ ∧ host = ⟨f.abs, f.comps ++ rest⟩) ∨
    (wr = false ∧ host = p ∧ ∃ rest,
      (∃ d ∈ readableDirs ++ e.limits.extraReadableDirs, h.isDir (.parse d) = true ∧ p.Inside (.parse d) rest) ∨
      (∃ cmd exe, e.command = .system cmd ∧ h.which cmd = some exe ∧ p.Inside exe.parent rest)) := by
  obtain ⟨dirs, hmo, hnd, hdirs, _⟩ := buildCommand_parts hc
  obtain ⟨before, m, after, rest, heq, hin, _, rfl, rfl⟩ := hs
  have hm : m ∈ c.mounts := by rw [heq]; simp
  rw [hmo, List.mem_append] at hm
  obtain ⟨h1, h2⟩ := hin
  rcases hm with hm | hm
  · rcases mem_fixed hm with rfl | rfl | ⟨f, rfl, rfl⟩
    · left
      exact ⟨rfl, rest, .inl ⟨by cases p; simp_all, by simp⟩⟩
    · left
      exact ⟨rfl, rest, .inr ⟨by cases p; simp_all, by simp⟩⟩
    · right; left
      exact ⟨rfl, f, rest, rfl, by cases p; simp_all, rfl⟩
  · obtain ⟨d, hd, rfl⟩ := List.mem_map.1 hm
    right; right
    refine ⟨rfl, by cases p; simp_all [asIs], rest, ?_⟩
    rcases (hdirs d).1 hd with ⟨s, hs, rfl, hdir⟩ | ⟨cmd, exe, hcm, hw, rfl⟩
    · exact .inl ⟨s, hs, hdir, h1, h2⟩
    · exact .inr ⟨cmd, exe, hcm, hw, h1, h2⟩

/-- The last of a list with a property. -/
theorem last_with {α : Type} (P : α → Prop) [DecidablePred P] : ∀ {l : List α}, (∃ x ∈ l, P x) →
    ∃ before m after, l = before ++ m :: after ∧ P m ∧ ∀ m' ∈ after, ¬ P m'
  | [], h => by simp at h
  | x :: l, h => by
    by_cases hl : ∃ y ∈ l, P y
    · obtain ⟨b, m, a, rfl, h1, h2⟩ := last_with P hl
      exact ⟨x :: b, m, a, rfl, h1, h2⟩
    · simp only [List.mem_cons, exists_eq_or_imp] at h
      rcases h with h | h
      · exact ⟨[], x, l, rfl, h, fun m' hm' hp => hl ⟨m', hm', hp⟩⟩
      · exact absurd h hl

/-- A path that is in a directory seen as it is, is seen as it is. -/
theorem sees_asIs {boxdir : Path} {fifo : Option Path} {dirs : List Path} {p d : Path} {rest : List String} (hd : d ∈ dirs)
    (hin : p.Inside d rest) : Sees (fixedMounts boxdir fifo ++ dirs.map asIs) p p false := by
  obtain ⟨b, m, a, heq, ⟨r, hm⟩, ha⟩ := by
    classical
    exact last_with (fun x : Path => ∃ r, p.Inside x r) ⟨d, hd, rest, hin⟩
  refine ⟨fixedMounts boxdir fifo ++ b.map asIs, asIs m, a.map asIs, r, ?_, hm, ?_, ?_, rfl⟩
  · rw [heq]; simp
  · intro m' hm' r' hr'
    obtain ⟨d', hd', rfl⟩ := List.mem_map.1 hm'
    exact ha d' hd' ⟨r', hr'⟩
  · obtain ⟨h1, h2⟩ := hm
    cases p; simp_all [asIs]

theorem nodup_map_asIs {l : List Path} (h : l.Nodup) : (l.map asIs).Nodup := by
  induction l with
  | nil => simp
  | cons a l ih =>
    simp only [List.nodup_cons, List.map_cons, List.mem_map, not_exists, not_and] at h ⊢
    refine ⟨?_, ih h.2⟩
    intro x hx he
    simp only [asIs, Mount.mk.injEq] at he
    exact h.1 (he.1 ▸ hx)

/-- **C88** All of the directories of the system and of those the execution asks for that exist are seen, at their own
path and protected from writing; none is mounted twice.  The box is seen as `/box`, with the fifos of the group, except
where one of those directories hides it. -/
theorem sees_all {h : Host} {e : Execution} {boxdir : Path} {fifo : Option Path} {c : Command}
    (hc : buildCommand h e boxdir fifo = some c) :
    (∀ d ∈ readableDirs ++ e.limits.extraReadableDirs, h.isDir (.parse d) = true → ∀ rest,
      Sees c.mounts ⟨(Path.parse d).abs, (Path.parse d).comps ++ rest⟩ ⟨(Path.parse d).abs, (Path.parse d).comps ++ rest⟩ false) ∧
    (∀ d, (fifo = some d → d ≠ ⟨true, ["box", "tm_pipes"]⟩) → c.mounts.count ⟨d, d, false⟩ ≤ 1) ∧
    (∀ rest, (∀ d, ⟨d, d, false⟩ ∈ c.mounts → ∀ r, ¬ Path.Inside ⟨true, "box" :: rest⟩ d r) →
      (fifo = none ∨ rest.head? ≠ some "tm_pipes" →
        Sees c.mounts ⟨true, "box" :: rest⟩ ⟨boxdir.abs, boxdir.comps ++ "box" :: rest⟩ true) ∧
      (∀ f r, fifo = some f → rest = "tm_pipes" :: r → Sees c.mounts ⟨true, "box" :: rest⟩ ⟨f.abs, f.comps ++ r⟩ false)) := by
  obtain ⟨dirs, hmo, hnd, hdirs, _⟩ := buildCommand_parts hc
  rw [hmo]
  refine ⟨?_, ?_, ?_⟩
  · intro d hd hdir rest
    exact sees_asIs ((hdirs (.parse d)).2 (.inl ⟨d, hd, rfl, hdir⟩)) ⟨rfl, rfl⟩
  · intro d hd
    rw [List.count_append, List.count_eq_zero.2, Nat.zero_add]
    · exact List.nodup_iff_count.1 (nodup_map_asIs hnd) _
    · intro hm
      rcases mem_fixed hm with h1 | h1 | ⟨f, hf, h1⟩
      · simp at h1
      · simp at h1
      · simp only [Mount.mk.injEq, and_true] at h1
        obtain ⟨rfl, h2⟩ := h1
        exact hd hf h2
  · intro rest hno
    have hno' : ∀ m' ∈ dirs.map asIs, ∀ r, ¬ Path.Inside ⟨true, "box" :: rest⟩ m'.target r := by
      intro m' hm' r
      obtain ⟨d, hd, rfl⟩ := List.mem_map.1 hm'
      exact hno d (List.mem_append_right _ hm') r
    constructor
    · intro hf
      refine ⟨[], ⟨boxdir.join ⟨false, ["box"]⟩, boxRoot, true⟩, (fixedMounts boxdir fifo).tail ++ dirs.map asIs, rest, rfl,
        ⟨rfl, rfl⟩, ?_, by simp [Path.join], rfl⟩
      intro m' hm' r
      rw [List.mem_append] at hm'
      rcases hm' with hm' | hm'
      · simp only [fixedMounts, List.tail_cons, List.mem_cons] at hm'
        rcases hm' with rfl | hm'
        · rintro ⟨_, h2⟩; simp at h2
        · cases fifo with
          | none => simp at hm'
          | some f =>
            simp only [List.mem_singleton] at hm'
            subst hm'
            rintro ⟨_, h2⟩
            simp only [Path.join, boxRoot, fifoSandboxDir, Bool.false_eq_true, if_false, List.cons_append, List.nil_append,
              List.cons.injEq, true_and] at h2
            rw [h2] at hf
            simp at hf
      · exact hno' m' hm' r
    · rintro f r rfl rfl
      refine ⟨[⟨boxdir.join ⟨false, ["box"]⟩, boxRoot, true⟩, ⟨boxdir.join ⟨false, ["etc"]⟩, ⟨true, ["etc"]⟩, true⟩],
        ⟨f, boxRoot.join ⟨false, fifoSandboxDir⟩, false⟩, dirs.map asIs, r, rfl, ⟨rfl, rfl⟩, hno', rfl, rfl⟩

/-- **C89** The program that is run: the executable of the system that the host finds, which the program sees at its own
path, read only; or the file of the box with the name that was asked for.  It gets exactly the arguments of the execution,
in their order; it is run in its box, never as root, and only the asked file systems are mounted.  When the executable is
not there, and only then, it is not run. -/
theorem command_exact {h : Host} {e : Execution} {boxdir : Path} {fifo : Option Path} :
    (∀ cmd, e.command = .system cmd → (∀ exe, h.which cmd = some exe → exe.comps ≠ []) →
      (buildCommand h e boxdir fifo = none ↔ h.which cmd = none) ∧
      (∀ c, buildCommand h e boxdir fifo = some c →
        h.which cmd = some c.executable ∧ Sees c.mounts c.executable c.executable false)) ∧
    (∀ cmd, e.command = .localCmd cmd → (Path.parse cmd).abs = false →
      (buildCommand h e boxdir fifo = none ↔
        h.runnable ⟨boxdir.abs, boxdir.comps ++ "box" :: (Path.parse cmd).comps⟩ = false) ∧
      (∀ c, buildCommand h e boxdir fifo = some c → c.executable = ⟨true, "box" :: (Path.parse cmd).comps⟩)) ∧
    (∀ c, buildCommand h e boxdir fifo = some c → c.args = e.args ∧ c.uid ≠ 0 ∧ c.gid ≠ 0 ∧ c.cwd = ⟨true, ["box"]⟩ ∧
      c.tmpfs = e.limits.mountTmpfs ∧ c.proc = e.limits.mountProc) := by
  refine ⟨?_, ?_, ?_⟩
  · intro cmd hcmd hne
    refine ⟨?_, ?_⟩
    · unfold buildCommand
      simp only [hcmd]
      cases h.which cmd <;> simp
    · intro c hc
      obtain ⟨dirs, hmo, _, hdirs, _, _, _, _, _, _, _, hx⟩ := buildCommand_parts hc
      simp only [hcmd] at hx
      refine ⟨hx, ?_⟩
      rw [hmo]
      have hl := hne _ hx
      exact sees_asIs (rest := [c.executable.comps.getLast hl]) ((hdirs c.executable.parent).2 (.inr ⟨cmd, c.executable, hcmd, hx, rfl⟩))
        ⟨rfl, by simp [Path.parent, List.dropLast_concat_getLast]⟩
  · intro cmd hcmd habs
    have hj : (boxdir.join ⟨false, ["box"]⟩).join (Path.parse cmd) =
        ⟨boxdir.abs, boxdir.comps ++ "box" :: (Path.parse cmd).comps⟩ := by simp [Path.join, habs]
    refine ⟨?_, ?_⟩
    · unfold buildCommand
      simp only [hcmd, hj]
      split <;> simp_all
    · intro c hc
      obtain ⟨dirs, hmo, _, hdirs, _, _, _, _, _, _, _, hx⟩ := buildCommand_parts hc
      simp only [hcmd] at hx
      rw [hx.2]
      simp [Path.join, habs, boxRoot]
  · intro c hc
    obtain ⟨dirs, hmo, _, hdirs, h1, h2, h3, h4, h5, h6, h7, hx⟩ := buildCommand_parts hc
    refine ⟨h2, by simp [h5], by simp [h6], h7, h3, h4⟩

/-- **C89** The environment: the variables that the execution sets, those of the machine that it asks to copy (if they are
there), and `PATH`; nothing else of the environment of the machine leaks in the sandbox.  If no variable is named
twice, each is set once. -/
theorem env_exact {h : Host} {e : Execution} {boxdir : Path} {fifo : Option Path} {c : Command}
    (hc : buildCommand h e boxdir fifo = some c) :
    (∀ k v, (k, v) ∈ c.env ↔ (k, v) ∈ e.env ∨ (k ∈ e.copyEnv ∧ h.var k = some v) ∨ (k = "PATH" ∧ v = (h.var "PATH").getD "")) ∧
    (("PATH" :: e.copyEnv ++ e.env.keys).Nodup → (c.env.map (·.1)).Nodup) := by
  obtain ⟨dirs, _, _, _, h1, _⟩ := buildCommand_parts hc
  rw [h1]
  refine ⟨?_, ?_⟩
  · intro k v
    simp only [buildEnv, List.cons_append, List.mem_cons, Prod.mk.injEq, List.mem_append, List.mem_filterMap,
      Option.map_eq_some_iff]
    constructor
    · rintro (⟨rfl, rfl⟩ | ⟨a, ha, b, hb, rfl, rfl⟩ | h)
      · exact .inr (.inr ⟨rfl, rfl⟩)
      · exact .inr (.inl ⟨ha, hb⟩)
      · exact .inl h
    · rintro (h | ⟨ha, hb⟩ | ⟨rfl, rfl⟩)
      · exact .inr (.inr h)
      · exact .inr (.inl ⟨k, ha, v, hb, rfl, rfl⟩)
      · exact .inl ⟨rfl, rfl⟩
  · intro hn
    refine List.Nodup.sublist ?_ hn
    simp only [buildEnv, List.cons_append, List.map_cons, List.map_append]
    refine List.Sublist.cons_cons _ (List.Sublist.append ?_ (List.Sublist.refl _))
    induction e.copyEnv with
    | nil => simp
    | cons a l ih =>
      rw [List.filterMap_cons]
      cases h.var a with
      | none => exact ih.cons _
      | some v => exact ih.cons_cons _

/-- **C89** is not true when a variable is named twice: with a `PATH` of its own, the execution has both. -/
theorem env_twice : ∃ (h : Host) (e : Execution) (c : Command), e.env = [("PATH", "/mine")] ∧
    buildCommand h e ⟨true, ["tmp"]⟩ none = some c ∧ c.env = [("PATH", "/bin"), ("PATH", "/mine")] :=
  ⟨⟨fun _ => false, fun _ => none, fun _ => some "/bin", fun _ => true⟩, { uuid := 0, env := [("PATH", "/mine")] }, _, rfl,
    rfl, rfl⟩

/-- **C86** The stack, the processes and the changes of mode: the sandbox has the limits of the execution. -/
theorem stack_and_calls (unit : Int) (e : Execution) (boxdir : Path) (fifo : Option Path) :
    (buildConfig unit e boxdir fifo).stackLimit = e.limits.stack.map (1024 * ·) ∧
    ((buildConfig unit e boxdir fifo).multiprocess = true ↔ e.limits.allowMultiprocess = true) ∧
    ((buildConfig unit e boxdir fifo).allowChmod = true ↔ e.limits.readOnly = false) := by
  refine ⟨?_, Iff.rfl, by simp [buildConfig]⟩
  cases h : e.limits.stack <;> simp [buildConfig, h, Nat.mul_comm]

/-- A machine with `/usr` and a compiler. -/
def exHost : Host where
  isDir p := decide (p = ⟨true, ["usr"]⟩) || decide (p = ⟨true, ["data"]⟩)
  which c := if c = "g++" then some ⟨true, ["usr", "bin", "g++"]⟩ else none
  var k := if k = "PATH" then some "/usr/bin" else if k = "HOME" then some "/root" else none
  runnable p := decide (p = ⟨true, ["tmp", "x", "box", "sol"]⟩)

/-- An execution of a compiler. -/
def exSystem : Execution :=
  { uuid := 0, command := .system "g++", args := ["-O2", "sol.cpp"], env := [("A", "b")], copyEnv := ["HOME", "LANG"],
    limits := { extraReadableDirs := ["/data/", "/nowhere"] } }

example : buildCommand exHost exSystem ⟨true, ["tmp", "x"]⟩ (some ⟨true, ["tmp", "f"]⟩) = some
    { mounts := [⟨⟨true, ["tmp", "x", "box"]⟩, ⟨true, ["box"]⟩, true⟩, ⟨⟨true, ["tmp", "x", "etc"]⟩, ⟨true, ["etc"]⟩, true⟩,
        ⟨⟨true, ["tmp", "f"]⟩, ⟨true, ["box", "tm_pipes"]⟩, false⟩, ⟨⟨true, ["usr"]⟩, ⟨true, ["usr"]⟩, false⟩,
        ⟨⟨true, ["data"]⟩, ⟨true, ["data"]⟩, false⟩, ⟨⟨true, ["usr", "bin"]⟩, ⟨true, ["usr", "bin"]⟩, false⟩],
      env := [("PATH", "/usr/bin"), ("HOME", "/root"), ("A", "b")], executable := ⟨true, ["usr", "bin", "g++"]⟩,
      args := ["-O2", "sol.cpp"], tmpfs := false, proc := false, uid := 1000, gid := 1000, cwd := ⟨true, ["box"]⟩ } := by
  decide +kernel

example : (buildCommand exHost { uuid := 0, command := .localCmd "sol" } ⟨true, ["tmp", "x"]⟩ none).isSome = true ∧
    buildCommand exHost { uuid := 0, command := .localCmd "other" } ⟨true, ["tmp", "x"]⟩ none = none ∧
    (Path.parse "sol").abs = false := by decide +kernel

example : Sees [⟨⟨true, ["tmp", "x", "box"]⟩, ⟨true, ["box"]⟩, true⟩, ⟨⟨true, ["tmp", "f"]⟩, ⟨true, ["box", "tm_pipes"]⟩, false⟩]
    ⟨true, ["box", "tm_pipes", "1"]⟩ ⟨true, ["tmp", "f", "1"]⟩ false :=
  ⟨[_], _, [], ["1"], rfl, ⟨rfl, rfl⟩, by simp, rfl, rfl⟩

end TM.Sandbox
