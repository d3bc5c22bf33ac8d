import Verif.Sandbox.Shell
import Verif.Sandbox.PropsCommand
/-!
# C139: a sandbox by hand
-/
namespace TM.Sandbox
open TM TM.Worker

/-! ## Lemmas -/

theorem parts_ne_nil (sep : Char) (t : Text) : parts sep t ≠ [] := by
  cases t with
  | nil => simp [parts]
  | cons c t =>
    simp only [parts]
    split
    · simp
    · split <;> simp

theorem parts_single {sep : Char} {t : Text} (h : sep ∉ t) : parts sep t = [t] := by
  induction t with
  | nil => rfl
  | cons c t ih =>
    simp only [List.mem_cons, not_or] at h
    simp only [parts, ih h.2, if_neg (Ne.symm h.1)]

theorem parts_append {sep : Char} {a r : Text} (h : sep ∉ a) : parts sep (a ++ sep :: r) = a :: parts sep r := by
  induction a with
  | nil => simp [parts]
  | cons c a ih =>
    simp only [List.mem_cons, not_or] at h
    simp only [List.cons_append, parts, ih h.2, if_neg (Ne.symm h.1)]

theorem digits_free {n : Nat} : ':' ∉ digits n ∧ '\n' ∉ digits n := by
  constructor <;> intro h <;>
  · have := Nat.isDigit_of_mem_toDigits (by decide) (by decide) h
    revert this
    decide

theorem records_two {a b : Text} (ha : '\n' ∉ a) (hb : '\n' ∉ b) : records (a ++ '\n' :: (b ++ ['\n'])) = [parts ':' a, parts ':' b] := by
  simp only [records, parts_append ha, parts_append hb]
  simp [parts]

theorem file_lines {P A N C D E T T' : Text} (h1 : P = A ++ ['\n']) (h2 : C = [':']) (h3 : T = ':' :: (T' ++ ['\n'])) :
    P ++ (N ++ D ++ C ++ E ++ T) = A ++ '\n' :: ((N ++ (D ++ ':' :: (E ++ ':' :: T'))) ++ ['\n']) := by
  subst h1 h2 h3
  simp

theorem file_lines2 {P A N E T T' : Text} (h1 : P = A ++ ['\n']) (h3 : T = ':' :: (T' ++ ['\n'])) :
    P ++ (N ++ E ++ T) = A ++ '\n' :: ((N ++ (E ++ ':' :: T')) ++ ['\n']) := by
  subst h1 h3
  simp

/-! ## C139 -/

/-- **C139** What the program may write, of the host, is the directory it was given, seen as `/box`, and the new directory
seen as `/etc`.  What it may only read is seen at its own path, and it is in a directory of the system or in one of those
that were asked for. -/
theorem shell_sees_only {h : Host} {cwd : Option Path} {etc : Path} {o : ShellOpt} {p host : Path} {wr : Bool}
    (hs : Sees (shell h cwd etc o).cmd.mounts p host wr) :
    (wr = true ∧ ∃ rest, (p = ⟨true, "box" :: rest⟩ ∧ ∃ w, w = (match o.workdir, cwd with
        | some w, _ => w
        | none, some c => c
        | none, none => ⟨true, []⟩) ∧ host = ⟨w.abs, w.comps ++ rest⟩) ∨
      (p = ⟨true, "etc" :: rest⟩ ∧ host = ⟨etc.abs, etc.comps ++ rest⟩)) ∨
    (wr = false ∧ host = p ∧ ∃ d rest, (d ∈ readableDirs.map Path.parse ∨ d ∈ o.readableDirs) ∧ h.isDir d = true ∧ p.Inside d rest) := by
  obtain ⟨before, m, after, rest, heq, ⟨h1, h2⟩, _, rfl, rfl⟩ := hs
  have hm : m ∈ (shell h cwd etc o).cmd.mounts := by rw [heq]; simp
  simp only [shell, List.mem_cons] at hm
  rcases hm with rfl | rfl | hm
  · left
    refine ⟨rfl, rest, .inl ⟨by cases p; simp_all [boxRoot], _, rfl, ?_⟩⟩
    cases o.workdir <;> cases cwd <;> rfl
  · left
    exact ⟨rfl, rest, .inr ⟨by cases p; simp_all, rfl⟩⟩
  · obtain ⟨d, hd, rfl⟩ := List.mem_map.1 hm
    right
    refine ⟨rfl, by cases p; simp_all [asIs], d, rest, ?_⟩
    rw [List.mem_append, List.mem_filter, List.mem_filter] at hd
    rcases hd with ⟨hd, hi⟩ | ⟨hd, hi⟩
    · exact ⟨.inl hd, hi, h1, h2⟩
    · exact ⟨.inr hd, hi, h1, h2⟩

/-- **C139** All of the directories of the system and of those asked for that exist are seen, at their own path and protected
from writing.  The given directory is seen as `/box`, the users in `/etc`, except where one of those hides them. -/
theorem shell_sees_all (h : Host) (cwd : Option Path) (etc : Path) (o : ShellOpt) :
    (∀ d, d ∈ readableDirs.map Path.parse ∨ d ∈ o.readableDirs → h.isDir d = true → ∀ rest,
      Sees (shell h cwd etc o).cmd.mounts ⟨d.abs, d.comps ++ rest⟩ ⟨d.abs, d.comps ++ rest⟩ false) ∧
    (∀ p : Path, (∀ d, d ∈ readableDirs.map Path.parse ∨ d ∈ o.readableDirs → h.isDir d = true → ∀ r, ¬ p.Inside d r) →
      (∀ rest w, p = ⟨true, "box" :: rest⟩ → (o.workdir = some w ∨ o.workdir = none ∧ cwd = some w) →
        Sees (shell h cwd etc o).cmd.mounts p ⟨w.abs, w.comps ++ rest⟩ true) ∧
      (∀ rest, p = ⟨true, "etc" :: rest⟩ → Sees (shell h cwd etc o).cmd.mounts p ⟨etc.abs, etc.comps ++ rest⟩ true)) := by
  constructor
  · intro d hd hi rest
    obtain ⟨b, m, a, heq, ⟨r, hm⟩, ha⟩ := by
      classical
      exact last_with (fun x : Path => ∃ r, Path.Inside ⟨d.abs, d.comps ++ rest⟩ x r)
        (l := (readableDirs.map Path.parse).filter h.isDir ++ o.readableDirs.filter h.isDir)
        ⟨d, by
          rw [List.mem_append, List.mem_filter, List.mem_filter]
          rcases hd with hd | hd
          · exact .inl ⟨hd, hi⟩
          · exact .inr ⟨hd, hi⟩, rest, rfl, rfl⟩
    refine ⟨⟨(o.workdir.or cwd).getD ⟨true, []⟩, boxRoot, true⟩ :: ⟨etc, ⟨true, ["etc"]⟩, true⟩ :: b.map asIs, asIs m, a.map asIs,
      r, ?_, hm, ?_, ?_, rfl⟩
    · simp only [shell]; rw [heq]; simp
    · intro m' hm' r' hr'
      obtain ⟨d', hd', rfl⟩ := List.mem_map.1 hm'
      exact ha d' hd' ⟨r', hr'⟩
    · obtain ⟨h1, h2⟩ := hm
      simp_all [asIs]
  · intro p hno
    have hno' : ∀ m' ∈ ((readableDirs.map Path.parse).filter h.isDir ++ o.readableDirs.filter h.isDir).map asIs,
        ∀ r, ¬ p.Inside m'.target r := by
      intro m' hm' r
      obtain ⟨d, hd, rfl⟩ := List.mem_map.1 hm'
      rw [List.mem_append, List.mem_filter, List.mem_filter] at hd
      rcases hd with ⟨hd, hi⟩ | ⟨hd, hi⟩
      · exact hno d (.inl hd) hi r
      · exact hno d (.inr hd) hi r
    constructor
    · rintro rest w rfl hw
      refine ⟨[], _, _, rest, rfl, ⟨rfl, rfl⟩, ?_, ?_, rfl⟩
      · intro m' hm' r
        rw [List.mem_cons] at hm'
        rcases hm' with rfl | hm'
        · rintro ⟨_, h2⟩; simp at h2
        · exact hno' m' hm' r
      · rcases hw with hw | ⟨hw, hc⟩
        · simp [hw]
        · simp [hw, hc]
    · rintro rest rfl
      exact ⟨[_], _, _, rest, rfl, ⟨rfl, rfl⟩, hno', rfl, rfl⟩

/-- **C139** The program is the one of the command with the rest of the words as its arguments, or bash; it is run in `/box`
with the ids that were asked for, with three variables of the environment, which are empty if they are not set outside. -/
theorem shell_program (h : Host) (cwd : Option Path) (etc : Path) (o : ShellOpt) :
    (o.command = [] → (shell h cwd etc o).cmd.executable = ⟨true, ["bin", "bash"]⟩ ∧ (shell h cwd etc o).cmd.args = []) ∧
    (∀ c args, o.command = c :: args → (shell h cwd etc o).cmd.executable = .parse c ∧ (shell h cwd etc o).cmd.args = args) ∧
    (shell h cwd etc o).cmd.cwd = ⟨true, ["box"]⟩ ∧ (shell h cwd etc o).cmd.uid = o.uid ∧ (shell h cwd etc o).cmd.gid = o.gid ∧
    ((shell h cwd etc o).cmd.tmpfs = true ↔ o.mountTmpfs = true) ∧ ((shell h cwd etc o).cmd.proc = true ↔ o.mountProc = true) ∧
    ((shell h cwd etc o).multiprocess = true ↔ o.singleProcess = false) ∧
    (∀ k v, (k, v) ∈ (shell h cwd etc o).cmd.env ↔ (k = "PATH" ∨ k = "LANG" ∨ k = "LC_ALL") ∧
      (h.var k = some v ∨ h.var k = none ∧ v = "")) := by
  refine ⟨fun hc => ?_, fun c args hc => ?_, rfl, rfl, rfl, Iff.rfl, Iff.rfl, ?_, fun k v => ?_⟩
  · simp [shell, hc]
  · simp [shell, hc]
  · simp [shell]
  · have key : ∀ k', (k, v) = (k', (h.var k').getD "") ↔ k = k' ∧ (h.var k = some v ∨ h.var k = none ∧ v = "") := by
      intro k'
      rw [Prod.mk.injEq]
      constructor
      · rintro ⟨rfl, rfl⟩
        cases h.var k <;> simp
      · rintro ⟨rfl, hv | ⟨hv, rfl⟩⟩ <;> simp [hv]
    simp only [shell, List.map_cons, List.map_nil, List.mem_cons, List.not_mem_nil, or_false, key]
    constructor
    · rintro (⟨h1, h2⟩ | ⟨h1, h2⟩ | ⟨h1, h2⟩) <;> simp [h1, h2] <;> simpa [h1] using h2
    · rintro ⟨h1 | h1 | h1, h2⟩ <;> simp [h1] <;> simpa [h1] using h2

/-- **C139** The limits, which are in KiB, are the ones of the program, in bytes, if they are less than 2^54. -/
theorem shell_limits_partial (h : Host) (cwd : Option Path) (etc : Path) (o : ShellOpt) :
    ((shell h cwd etc o).memoryLimit = none ↔ o.memoryLimit = none) ∧
    ((shell h cwd etc o).stackLimit = none ↔ o.stackLimit = none) ∧
    (∀ m, o.memoryLimit = some m → m < 2 ^ 54 → (shell h cwd etc o).memoryLimit = some (m * 1024)) ∧
    (∀ m, o.stackLimit = some m → m < 2 ^ 54 → (shell h cwd etc o).stackLimit = some (m * 1024)) := by
  have hk : ∀ m, m < 2 ^ 54 → kib m = m * 1024 := fun m hm => Nat.mod_eq_of_lt (by omega)
  refine ⟨by simp [shell], by simp [shell], fun m hm hl => ?_, fun m hm hl => ?_⟩
  · simp [shell, hm, hk m hl]
  · simp [shell, hm, hk m hl]

/-- **C139** Why it is partial: a greater limit becomes a small one. -/
theorem limit_wraps (h : Host) (cwd : Option Path) (etc : Path) (o : ShellOpt) (ho : o.memoryLimit = some (2 ^ 54 + 1)) :
    (shell h cwd etc o).memoryLimit = some 1024 := by
  simp [shell, ho, kib]

/-- **C139** The users of the sandbox are root and nobody, with the ids that were asked for; so are the groups. -/
theorem shell_users (h : Host) (cwd : Option Path) (etc : Path) (o : ShellOpt) :
    records (shell h cwd etc o).passwd =
      [["root".toList, [], "0".toList, "0".toList, [], "/".toList, "/bin/sh".toList],
        ["nobody".toList, [], Nat.toDigits 10 o.uid, Nat.toDigits 10 o.gid, [], "/".toList, "/bin/sh".toList]] ∧
    records (shell h cwd etc o).group =
      [["root".toList, "x".toList, "0".toList, "root".toList],
        ["nobody".toList, "x".toList, Nat.toDigits 10 o.gid, "nobody".toList]] := by
  obtain ⟨hu1, hu2⟩ := digits_free (n := o.uid)
  obtain ⟨hg1, hg2⟩ := digits_free (n := o.gid)
  constructor
  · have e : (shell h cwd etc o).passwd = "root::0:0::/:/bin/sh".toList ++ '\n' ::
        (("nobody::".toList ++ (digits o.uid ++ ':' :: (digits o.gid ++ ':' :: ":/:/bin/sh".toList))) ++ ['\n']) := by
      exact file_lines (by decide +kernel) (by decide +kernel) (by decide +kernel)
    rw [e, records_two (by decide +kernel) (by simp [hu2, hg2])]
    have e2 : "nobody::".toList ++ (digits o.uid ++ ':' :: (digits o.gid ++ ':' :: ":/:/bin/sh".toList)) =
        "nobody".toList ++ ':' :: ([] ++ ':' :: (digits o.uid ++ ':' :: (digits o.gid ++ ':' :: ":/:/bin/sh".toList))) := by
      have l1 : "nobody::".toList = "nobody".toList ++ [':', ':'] := by decide +kernel
      simp only [l1, List.append_assoc, List.cons_append, List.nil_append]
    rw [e2, parts_append (a := "nobody".toList) (by decide +kernel), parts_append (by simp), parts_append hu1, parts_append hg1]
    have l1 : parts ':' "root::0:0::/:/bin/sh".toList =
        ["root".toList, [], "0".toList, "0".toList, [], "/".toList, "/bin/sh".toList] := by decide +kernel
    have l2 : parts ':' ":/:/bin/sh".toList = [[], "/".toList, "/bin/sh".toList] := by decide +kernel
    rw [l1, l2]
    rfl
  · have e : (shell h cwd etc o).group = "root:x:0:root".toList ++ '\n' ::
        (("nobody:x:".toList ++ (digits o.gid ++ ':' :: "nobody".toList)) ++ ['\n']) := by
      exact file_lines2 (by decide +kernel) (by decide +kernel)
    rw [e, records_two (by decide +kernel) (by simp [hg2])]
    have e2 : "nobody:x:".toList ++ (digits o.gid ++ ':' :: "nobody".toList) =
        "nobody".toList ++ ':' :: ("x".toList ++ ':' :: (digits o.gid ++ ':' :: "nobody".toList)) := by
      have l1 : "nobody:x:".toList = "nobody".toList ++ ':' :: ("x".toList ++ [':']) := by decide +kernel
      simp only [l1, List.append_assoc, List.cons_append, List.nil_append]
    rw [e2, parts_append (a := "nobody".toList) (by decide +kernel), parts_append (a := "x".toList) (by decide +kernel),
      parts_append hg1, parts_single (t := "nobody".toList) (by decide +kernel)]
    have l1 : parts ':' "root:x:0:root".toList = ["root".toList, "x".toList, "0".toList, "root".toList] := by decide +kernel
    rw [l1]
    rfl

/-! ## Examples -/

def shellHost : Host :=
  { isDir := fun p => p = ⟨true, ["usr"]⟩ ∨ p = ⟨true, ["data"]⟩ ∨ p = ⟨true, ["etc"]⟩
    which := fun _ => none
    var := fun k => if k = "PATH" then some "/usr/bin" else none
    runnable := fun _ => false }

def shellOpt : ShellOpt :=
  { workdir := none, memoryLimit := some 1024, stackLimit := none, singleProcess := true, readableDirs := [⟨true, ["data"]⟩, ⟨true, ["no"]⟩],
    mountTmpfs := true, mountProc := false, uid := 1000, gid := 100, command := ["/bin/echo", "a", "b"] }

example : (shell shellHost (some ⟨true, ["home", "x"]⟩) ⟨true, ["tmp", "q"]⟩ shellOpt).cmd =
    ⟨[⟨⟨true, ["home", "x"]⟩, ⟨true, ["box"]⟩, true⟩, ⟨⟨true, ["tmp", "q"]⟩, ⟨true, ["etc"]⟩, true⟩, ⟨⟨true, ["usr"]⟩, ⟨true, ["usr"]⟩, false⟩,
      ⟨⟨true, ["data"]⟩, ⟨true, ["data"]⟩, false⟩], [("PATH", "/usr/bin"), ("LANG", ""), ("LC_ALL", "")], ⟨true, ["bin", "echo"]⟩, ["a", "b"],
      true, false, 1000, 100, ⟨true, ["box"]⟩⟩ := by decide +kernel

/-- The hypothesis of `shell_sees_only` holds. -/
example : Sees (shell shellHost (some ⟨true, ["home", "x"]⟩) ⟨true, ["tmp", "q"]⟩ shellOpt).cmd.mounts ⟨true, ["box", "f"]⟩
    ⟨true, ["home", "x", "f"]⟩ true :=
  ((shell_sees_all _ _ _ shellOpt).2 _ (by
    intro d hd hi r hin
    have : d = ⟨true, ["usr"]⟩ ∨ d = ⟨true, ["data"]⟩ ∨ d = ⟨true, ["etc"]⟩ := by simpa [shellHost] using hi
    rcases this with rfl | rfl | rfl <;> simp [Path.Inside] at hin)).1 ["f"] ⟨true, ["home", "x"]⟩ rfl (.inr ⟨rfl, rfl⟩)

example : (shell shellHost none ⟨true, []⟩ shellOpt).memoryLimit = some 1048576 := by decide +kernel

example : (shell shellHost none ⟨true, []⟩ shellOpt).group = "root:x:0:root\nnobody:x:100:nobody\n".toList := by decide +kernel

/-- Asking for `/etc` hides the users. -/
example : Sees (shell shellHost none ⟨true, ["tmp", "q"]⟩ { shellOpt with readableDirs := [⟨true, ["etc"]⟩] }).cmd.mounts
    ⟨true, ["etc", "passwd"]⟩ ⟨true, ["etc", "passwd"]⟩ false :=
  (shell_sees_all _ _ _ { shellOpt with readableDirs := [⟨true, ["etc"]⟩] }).1 ⟨true, ["etc"]⟩ (.inr (by simp)) (by decide +kernel) ["passwd"]

end TM.Sandbox
