import Verif.Remote.Connect
/-!
# C119, C120: the connections to a server, and its listeners
-/

namespace TM.Remote

/-! ## Specification -/

/-- `s` is `scheme:rest`, where the scheme is a letter followed by letters, digits, `+`, `-` and `.`; `sch`
is the scheme in lower case. -/
def HasScheme (s sch rest : List Char) : Prop :=
  ∃ (c : Char) (raw : List Char), s = c :: raw ++ ':' :: rest ∧ c.isAlpha = true ∧
    (∀ x ∈ raw, x.isAlphanum = true ∨ x = '+' ∨ x = '-' ∨ x = '.') ∧ sch = (c :: raw).map Char.toLower

/-- The URL an address stands for: the address itself when it has a scheme, `tcp://` followed by the
address otherwise. -/
def Means (w : World) (s sch : List Char) (u : UrlRest) : Prop :=
  (∃ rest, HasScheme s sch rest ∧ w.parseRest sch rest = some u) ∨
  ((¬ ∃ sch' rest, HasScheme s sch' rest) ∧ sch = "tcp".toList ∧
    w.parseRest "tcp".toList ("//".toList ++ s) = some u)

/-- The addresses up to `a` have been tried, in order, and only the last is not a network error. -/
def UpTo (w : World) (key : Option Nat) (addrs : List Nat) (pre : List Nat) (a : Nat) : Prop :=
  (∃ post, addrs = pre ++ a :: post) ∧ ∀ b ∈ pre, w.connect b key = .io

/-- What connecting to a TCP address does, for the addresses its name resolves to. -/
def TcpRun (w : World) (key : Option Nat) (addrs : List Nat) (tried : List Attempt) (o : Outcome) : Prop :=
  (∃ pre a, UpTo w key addrs pre a ∧ tried = (pre ++ [a]).map (fun b => .tcp b key) ∧
    ((w.connect a key = .ok ∧ o = .connected (.tcp a key)) ∨
     (w.connect a key = .other ∧ o = .failed (.conn (.tcp a key))))) ∨
  (∃ pre a, addrs = pre ++ [a] ∧ (∀ b ∈ addrs, w.connect b key = .io) ∧
    tried = addrs.map (fun b => .tcp b key) ∧ o = .failed (.conn (.tcp a key)))

/-! ## Lemmas -/

theorem schemeChar_iff (x : Char) : isSchemeChar x = true ↔
    (x.isAlphanum = true ∨ x = '+' ∨ x = '-' ∨ x = '.') := by
  simp only [isSchemeChar, Bool.or_eq_true, decide_eq_true_eq, or_assoc]

theorem colon_not_scheme : isSchemeChar ':' = false := by decide

theorem schemeGo_iff (s : List Char) : ∀ acc sch rest,
    schemeGo acc s = some (sch, rest) ↔
      ∃ raw, s = raw ++ ':' :: rest ∧ (∀ x ∈ raw, isSchemeChar x = true) ∧ sch = acc ++ raw.map Char.toLower := by
  induction s with
  | nil =>
    intro acc sch rest
    simp [schemeGo]
  | cons c cs ih =>
    intro acc sch rest
    unfold schemeGo
    by_cases hc : c = ':'
    · subst hc
      rw [if_pos rfl]
      constructor
      · intro h
        simp only [Option.some.injEq, Prod.mk.injEq] at h
        exact ⟨[], by simp [h.2], by simp, by simp [h.1]⟩
      · rintro ⟨raw, h1, h2, h3⟩
        cases raw with
        | nil => simp at h1 h3; rw [h1, h3]
        | cons d ds =>
          simp only [List.cons_append, List.cons.injEq] at h1
          have := h2 d (by simp)
          rw [← h1.1, colon_not_scheme] at this
          exact absurd this (by simp)
    · rw [if_neg hc]
      by_cases hs : isSchemeChar c = true
      · rw [if_pos hs, ih]
        constructor
        · rintro ⟨raw, h1, h2, h3⟩
          refine ⟨c :: raw, by rw [h1]; rfl, ?_, by rw [h3]; simp⟩
          intro x hx
          rcases List.mem_cons.mp hx with rfl | hx
          · exact hs
          · exact h2 x hx
        · rintro ⟨raw, h1, h2, h3⟩
          cases raw with
          | nil => simp at h1; exact absurd h1.1 hc
          | cons d ds =>
            simp only [List.cons_append, List.cons.injEq] at h1
            refine ⟨ds, h1.2, fun x hx => h2 x (List.mem_cons_of_mem _ hx), ?_⟩
            rw [h3, h1.1]; simp
      · rw [if_neg hs]
        constructor
        · intro h; exact absurd h (by simp)
        · rintro ⟨raw, h1, h2, _⟩
          cases raw with
          | nil => simp at h1; exact absurd h1.1 hc
          | cons d ds =>
            simp only [List.cons_append, List.cons.injEq] at h1
            exact absurd (h2 d (by simp)) (by rw [← h1.1]; exact hs)

theorem alpha_scheme {c : Char} (h : c.isAlpha = true) : isSchemeChar c = true := by
  simp [isSchemeChar, Char.isAlphanum, h]

theorem splitScheme_iff (s sch rest : List Char) :
    splitScheme s = some (sch, rest) ↔ HasScheme s sch rest := by
  cases s with
  | nil =>
    simp only [splitScheme, HasScheme]
    constructor
    · intro h; exact absurd h (by simp)
    · rintro ⟨c, raw, h, _⟩; exact absurd h (by simp)
  | cons c cs =>
    unfold splitScheme HasScheme
    dsimp only
    by_cases hc : c.isAlpha = true
    · rw [if_pos hc, schemeGo_iff]
      constructor
      · rintro ⟨raw, h1, h2, h3⟩
        cases raw with
        | nil =>
          simp at h1
          rw [h1.1] at hc
          exact absurd hc (by decide)
        | cons d ds =>
          simp only [List.cons_append, List.cons.injEq] at h1
          refine ⟨c, ds, by rw [h1.2]; rfl, hc, fun x hx => (schemeChar_iff x).mp (h2 x (by simp [hx])), ?_⟩
          rw [h3, h1.1]; rfl
      · rintro ⟨d, raw, h1, _, h2, h3⟩
        refine ⟨d :: raw, h1, ?_, by rw [h3]; rfl⟩
        intro x hx
        rcases List.mem_cons.mp hx with rfl | hx
        · simp only [List.cons_append, List.cons.injEq] at h1
          rw [← h1.1]; exact alpha_scheme hc
        · exact (schemeChar_iff x).mpr (h2 x hx)
    · rw [if_neg hc]
      constructor
      · intro h; exact absurd h (by simp)
      · rintro ⟨d, raw, h1, h2, _⟩
        simp only [List.cons_append, List.cons.injEq] at h1
        rw [← h1.1] at h2
        exact absurd h2 hc

theorem split_tcp (s : List Char) :
    splitScheme ("tcp://".toList ++ s) = some ("tcp".toList, "//".toList ++ s) := by
  rw [splitScheme_iff]
  refine ⟨'t', ['c', 'p'], rfl, by decide, ?_, by decide⟩
  decide

/-- The URL that is used. -/
theorem means_iff (w : World) (s : List Char) (port : Nat) :
    (∃ sch u, Means w s sch u ∧ connectTo w s port = connectUrl w port sch u) ∨
    ((∀ sch u, ¬ Means w s sch u) ∧ connectTo w s port = ([], .failed .url)) := by
  unfold connectTo parseUrl
  cases hs : splitScheme s with
  | some x =>
    obtain ⟨sch, rest⟩ := x
    have hsch := (splitScheme_iff s sch rest).mp hs
    simp only
    cases hp : w.parseRest sch rest with
    | some u => exact .inl ⟨sch, u, .inl ⟨rest, hsch, hp⟩, rfl⟩
    | none =>
      refine .inr ⟨?_, rfl⟩
      rintro sch' u (⟨rest', h1, h2⟩ | ⟨h1, _⟩)
      · rw [(splitScheme_iff s sch' rest').mpr h1] at hs
        simp only [Option.some.injEq, Prod.mk.injEq] at hs
        rw [hs.1, hs.2, hp] at h2
        exact absurd h2 (by simp)
      · exact h1 ⟨sch, rest, hsch⟩
  | none =>
    have hno : ¬ ∃ sch' rest, HasScheme s sch' rest := by
      rintro ⟨sch', rest, h⟩
      rw [(splitScheme_iff s sch' rest).mpr h] at hs
      exact absurd hs (by simp)
    simp only [split_tcp]
    cases hp : w.parseRest "tcp".toList ("//".toList ++ s) with
    | some u => exact .inl ⟨_, u, .inr ⟨hno, rfl, hp⟩, rfl⟩
    | none =>
      refine .inr ⟨?_, rfl⟩
      rintro sch' u (⟨rest', h1, _⟩ | ⟨_, _, h2⟩)
      · exact hno ⟨sch', rest', h1⟩
      · rw [hp] at h2; exact absurd h2 (by simp)

theorem means_unique {w : World} {s sch sch' : List Char} {u u' : UrlRest} (h : Means w s sch u)
    (h' : Means w s sch' u') : sch = sch' ∧ u = u' := by
  rcases h with ⟨r, h1, h2⟩ | ⟨h1, h2, h3⟩ <;> rcases h' with ⟨r', h1', h2'⟩ | ⟨h1', h2', h3'⟩
  · have e := (splitScheme_iff _ _ _).mpr h1
    rw [(splitScheme_iff _ _ _).mpr h1'] at e
    simp only [Option.some.injEq, Prod.mk.injEq] at e
    rw [e.1, e.2, h2] at h2'
    exact ⟨e.1.symm, by injection h2'⟩
  · exact absurd ⟨_, _, h1⟩ h1'
  · exact absurd ⟨_, _, h1'⟩ h1
  · rw [h3] at h3'
    exact ⟨by rw [h2, h2'], by injection h3'⟩

theorem tryAll_run (w : World) (key : Option Nat) (as : List Nat) : ∀ last,
    (as = [] ∧ tryAll w key last as = ([], .failed (match last with | some a => .conn a | none => .unknown))) ∨
    TcpRun w key as (tryAll w key last as).1 (tryAll w key last as).2 := by
  induction as with
  | nil => intro last; exact .inl ⟨rfl, rfl⟩
  | cons a as ih =>
    intro last
    right
    unfold tryAll
    cases hc : w.connect a key with
    | ok => exact .inl ⟨[], a, ⟨⟨as, rfl⟩, by simp⟩, rfl, .inl ⟨hc, rfl⟩⟩
    | other => exact .inl ⟨[], a, ⟨⟨as, rfl⟩, by simp⟩, rfl, .inr ⟨hc, rfl⟩⟩
    | io =>
      simp only
      rcases ih (some (.tcp a key)) with ⟨rfl, h⟩ | h
      · rw [h]
        exact .inr ⟨[], a, rfl, by simpa using hc, rfl, rfl⟩
      · rcases h with ⟨pre, x, ⟨⟨post, h1⟩, h2⟩, h3, h4⟩ | ⟨pre, x, h1, h2, h3, h4⟩
        · refine .inl ⟨a :: pre, x, ⟨⟨post, by rw [h1]; rfl⟩, ?_⟩, by rw [h3]; rfl, h4⟩
          intro b hb
          rcases List.mem_cons.mp hb with rfl | hb
          · exact hc
          · exact h2 b hb
        · refine .inr ⟨a :: pre, x, by rw [h1]; rfl, ?_, by rw [h3]; rfl, h4⟩
          intro b hb
          rcases List.mem_cons.mp hb with rfl | hb
          · exact hc
          · exact h2 b hb

/-! ## C119 -/

/-- **C119** the whole behaviour for a TCP URL: refused without any attempt when the name does not resolve or
there is a path; otherwise the addresses are tried in order, all with the key of the password (or
all without), until one answers or fails for a reason that is not the network. -/
theorem connect_tcp {w : World} {s : List Char} {u : UrlRest} (port : Nat)
    (h : Means w s "tcp".toList u) :
    match w.resolve u.host (u.port.getD port) with
    | none => connectTo w s port = ([], .failed .resolve)
    | some addrs =>
      if addrs = [] then connectTo w s port = ([], .failed .resolve)
      else if u.path = [] then
        TcpRun w (u.password.map w.key) addrs (connectTo w s port).1 (connectTo w s port).2
      else connectTo w s port = ([], .failed .path) := by
  rcases means_iff w s port with ⟨sch, u', hm, he⟩ | ⟨hn, _⟩
  · obtain ⟨rfl, rfl⟩ := means_unique h hm
    rw [he]
    unfold connectUrl
    rw [if_pos rfl]
    cases hr : w.resolve u.host (u.port.getD port) with
    | none => rfl
    | some addrs =>
      simp only
      cases addrs with
      | nil => rfl
      | cons a as =>
        simp only [List.isEmpty_cons, Bool.false_eq_true, if_false]
        rw [if_neg (by simp)]
        cases hp : u.path with
        | nil =>
          simp only [List.isEmpty_nil, not_true, if_false, if_true]
          rcases tryAll_run w (u.password.map w.key) (a :: as) none with ⟨h1, _⟩ | h1
          · exact absurd h1 (by simp)
          · exact h1
        | cons c cs => simp
  · exact absurd h (hn _ _)

/-- **C119** a unix URL is tried once, without encryption. -/
theorem connect_unix {w : World} {s : List Char} {u : UrlRest} (port : Nat)
    (h : Means w s "unix".toList u) :
    connectTo w s port = ([.unix u.path],
      if w.connectUnix u.path = true then .connected (.unix u.path) else .failed (.conn (.unix u.path))) := by
  rcases means_iff w s port with ⟨sch, u', hm, he⟩ | ⟨hn, _⟩
  · obtain ⟨rfl, rfl⟩ := means_unique h hm
    rw [he]
    unfold connectUrl
    rw [if_neg (by decide), if_pos rfl]
    by_cases hc : w.connectUnix u.path = true <;> simp [hc]
  · exact absurd h (hn _ _)

/-- **C119** any other scheme, and an address that is not a URL, is refused without any attempt. -/
theorem connect_other {w : World} {s : List Char} (port : Nat)
    (h : ∀ u, ¬ Means w s "tcp".toList u ∧ ¬ Means w s "unix".toList u) :
    (connectTo w s port).1 = [] ∧ ∃ e, (connectTo w s port).2 = .failed e := by
  rcases means_iff w s port with ⟨sch, u, hm, he⟩ | ⟨_, he⟩
  · rw [he]
    unfold connectUrl
    rw [if_neg, if_neg]
    · exact ⟨rfl, _, rfl⟩
    · rintro rfl; exact (h u).2 hm
    · rintro rfl; exact (h u).1 hm
  · rw [he]; exact ⟨rfl, _, rfl⟩

/-- **C119** with a password in a TCP URL no connection is attempted without encryption, or with another
key. -/
theorem password_used {w : World} {s p : List Char} {u : UrlRest} (port : Nat)
    (h : Means w s "tcp".toList u) (hp : u.password = some p) :
    ∀ x ∈ (connectTo w s port).1, ∃ a, x = .tcp a (some (w.key p)) := by
  have := connect_tcp port h
  intro x hx
  cases hr : w.resolve u.host (u.port.getD port) with
  | none => rw [hr] at this; simp only at this; rw [this] at hx; simp at hx
  | some addrs =>
    rw [hr] at this
    simp only at this
    split at this
    · rw [this] at hx; simp at hx
    · split at this
      · rw [hp] at this
        rcases this with ⟨pre, a, _, h2, _⟩ | ⟨pre, a, _, _, h2, _⟩
        · rw [h2] at hx
          obtain ⟨b, _, rfl⟩ := List.mem_map.mp hx
          exact ⟨b, rfl⟩
        · rw [h2] at hx
          obtain ⟨b, _, rfl⟩ := List.mem_map.mp hx
          exact ⟨b, rfl⟩
      · rw [this] at hx; simp at hx

/-- **C119** an address without a scheme is the same as the address after `tcp://`; this holds for the
addresses in which nothing looks like a scheme (no colon, or something before the first colon that a
scheme cannot have, as a host that starts with a digit, or a password). -/
theorem bare_address_partial (w : World) (s : List Char) (port : Nat)
    (h : ¬ ∃ sch rest, HasScheme s sch rest) :
    connectTo w s port = connectTo w ("tcp://".toList ++ s) port := by
  have hs : splitScheme s = none := by
    cases hs : splitScheme s with
    | none => rfl
    | some x => exact absurd ⟨x.1, x.2, (splitScheme_iff _ _ _).mp hs⟩ h
  unfold connectTo
  have h1 : parseUrl w s = .relative := by unfold parseUrl; rw [hs]
  have h2 : parseUrl w ("tcp://".toList ++ s) ≠ .relative := by
    unfold parseUrl; rw [split_tcp]; simp only; split <;> simp
  rw [h1]
  cases h3 : parseUrl w ("tcp://".toList ++ s) with
  | relative => exact absurd h3 h2
  | ok sch u => rfl
  | err => rfl

/-- **C119** `host:port` with a name for the host is refused: the host is taken for a scheme.  No
connection is attempted, whatever the server. -/
theorem host_port_refused (w : World) (host port_ : List Char) (c : Char) (port : Nat)
    (h1 : c.isAlpha = true) (h2 : ∀ x ∈ host, x.isAlphanum = true ∨ x = '+' ∨ x = '-' ∨ x = '.')
    (h3 : (c :: host).map Char.toLower ≠ "tcp".toList) (h4 : (c :: host).map Char.toLower ≠ "unix".toList) :
    (connectTo w (c :: host ++ ':' :: port_) port).1 = [] ∧
      ∃ e, (connectTo w (c :: host ++ ':' :: port_) port).2 = .failed e := by
  have hs : HasScheme (c :: host ++ ':' :: port_) ((c :: host).map Char.toLower) port_ :=
    ⟨c, host, rfl, h1, h2, rfl⟩
  apply connect_other
  intro u
  constructor
  · rintro (⟨r, h5, _⟩ | ⟨h5, _⟩)
    · have e := (splitScheme_iff _ _ _).mpr h5
      rw [(splitScheme_iff _ _ _).mpr hs] at e
      simp only [Option.some.injEq, Prod.mk.injEq] at e
      exact h3 e.1
    · exact h5 ⟨_, _, hs⟩
  · rintro (⟨r, h5, _⟩ | ⟨h5, _⟩)
    · have e := (splitScheme_iff _ _ _).mpr h5
      rw [(splitScheme_iff _ _ _).mpr hs] at e
      simp only [Option.some.injEq, Prod.mk.injEq] at e
      exact h4 e.1
    · exact h5 ⟨_, _, hs⟩

/-! ### A world to try it in: a server on the second address of `lab` -/

/-- Cut at the first colon. -/
def cutColon : List Char → List Char × Option (List Char)
  | [] => ([], none)
  | c :: cs => if c = ':' then ([], some cs) else ((c :: (cutColon cs).1), (cutColon cs).2)

/-- A toy grammar: `//host` or `//host:port`, and `///path`. -/
def demoWorld : World where
  parseRest := fun sch rest =>
    match rest with
    | '/' :: '/' :: r =>
      if sch = "unix".toList then some ⟨[], none, r, none⟩
      else
        let x := cutColon r
        some ⟨x.1, x.2.map (fun p => p.length), [], if x.1 = ['s'] then some ['p'] else none⟩
    | _ => some ⟨[], none, rest, none⟩
  resolve := fun host port => if host = [] then none else some [port, port + 1, port + 2]
  connect := fun a k => if a % 2 = 0 then .io else if k = some 9 then .other else .ok
  connectUnix := fun p => p = "/run/tm".toList
  key := fun p => if p = ['p'] then 9 else 8

/-- The server can be reached at this address with its scheme but not without it. -/
theorem bare_address_not_always :
    ¬ ∀ (w : World) (s : List Char) (port : Nat),
      (¬ ∃ r, s = "tcp://".toList ++ r ∨ s = "unix://".toList ++ r) →
      connectTo w s port = connectTo w ("tcp://".toList ++ s) port := by
  intro h
  have := h demoWorld ['l', 'a', 'b', ':', '2'] 4 (by
    rintro ⟨r, h1 | h1⟩
    · have h2 : ("tcp://".toList : List Char) = ['t', 'c', 'p', ':', '/', '/'] := rfl
      rw [h2] at h1; simp at h1
    · have h2 : ("unix://".toList : List Char) = ['u', 'n', 'i', 'x', ':', '/', '/'] := rfl
      rw [h2] at h1; simp at h1)
  revert this
  decide

example : connectTo demoWorld "lab".toList 4 =
    ([.tcp 4 none, .tcp 5 none], .connected (.tcp 5 none)) := by decide
example : connectTo demoWorld "s".toList 4 =
    ([.tcp 4 (some 9), .tcp 5 (some 9)], .failed (.conn (.tcp 5 (some 9)))) := by decide
example : connectTo demoWorld "lab:12".toList 4 = ([], .failed .scheme) := by decide
example : connectTo demoWorld "tcp://lab:1".toList 4 = ([.tcp 1 none], .connected (.tcp 1 none)) := by decide
example : connectTo demoWorld "unix:///run/tm".toList 4 =
    ([.unix "/run/tm".toList], .connected (.unix "/run/tm".toList)) := by decide
example : Means demoWorld "lab".toList "tcp".toList ⟨"lab".toList, none, [], none⟩ := by
  refine .inr ⟨?_, rfl, by decide⟩
  rintro ⟨sch, rest, h⟩
  have h1 := (splitScheme_iff _ _ _).mpr h
  have h2 : splitScheme "lab".toList = none := by decide
  rw [h2] at h1
  exact absurd h1 (by simp)

end TM.Remote
