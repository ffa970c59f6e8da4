import Verif.Proofs.Paths
import Verif.Model.Treasure
/-!
# C18–C22: where things are stored
-/

namespace Verif
open Spec

theorem Spec.Obj.resolve_eq (cwd : Path) (home : Bytes) (o : Obj) (h : o.owner ≠ some [])
    (hn : ∀ s ∈ o.names, NoUp s) :
    ∃ p, o.path home = .ok p ∧ resolve cwd p = homeDir cwd home ++ o.pieces.filter keeps := by
  obtain ⟨rest, hp, hs⟩ := o.path_eq home h
  refine ⟨_, hp, ?_⟩
  unfold homeDir
  by_cases hh : home = []
  · subst hh
    rw [if_pos rfl, List.nil_append, List.nil_append]
    have : resolve cwd (slash :: rest) = (splitByte slash rest).foldl Path.enter [] := by
      unfold resolve
      simp [splitByte, pathStart, Path.enter]
    rw [this, hs, foldl_enter (o.pieces_noUp hn), List.nil_append]
  · rw [if_neg hh, resolve_under hh, hs, foldl_enter (o.pieces_noUp hn)]

theorem Spec.Obj.owner_mem (o : Obj) (u : Bytes) (h : o.owner = some u) : u ∈ o.names := by
  cases o <;> simp_all [Obj.owner, Obj.names]

theorem Spec.Obj.kept_ne_nil (o : Obj) : ∃ x xs, o.pieces.filter keeps = x :: xs := by
  have k1 : keeps (ascii "home") = true := by decide
  have k2 : keeps (ascii "boards") = true := by decide
  have k3 : keeps (ascii "man") = true := by decide
  cases o
  · exact ⟨_, _, rfl⟩
  · exact ⟨_, _, rfl⟩
  all_goals simp only [Obj.pieces, List.filter_cons, k1, k2, k3, if_true]; exact ⟨_, _, rfl⟩

theorem letter_kept {u : Bytes} (h : Component u) :
    (splitByte slash (fmtC (u.headD 0))).filter keeps = letterDir u := by
  cases u with
  | nil => exact absurd rfl h.nonempty
  | cons c cs =>
    have hc : c ≠ slash := fun e => h.noSlash (by rw [e]; simp)
    simp only [List.headD_cons, letterDir, List.head?_cons, Option.some.injEq]
    rw [splitByte_of_not_mem (fmtC_noSlash hc)]
    rcases fmtC_spec c with ⟨e, _⟩ | ⟨x, y, e, _, _, hb⟩
    · rw [e]
      by_cases hd : c = dot
      · subst hd; decide
      · rw [if_neg hd]; simp [keeps, hd]
    · have hd : c ≠ dot := by intro e; subst e; revert hb; decide
      rw [e, if_neg hd]; simp [keeps]

/-! ## C18 -/

/-- C18, exact form: an object named by single path components is stored at its documented location under the home
directory. -/
theorem C18_location (cwd : Path) (home : Bytes) (o : Obj) (h : ∀ s ∈ o.names, Component s) :
    ∃ p, o.path home = .ok p ∧ resolve cwd p = homeDir cwd home ++ o.loc := by
  obtain ⟨p, hp, hr⟩ := o.resolve_eq cwd home
    (fun e => (h [] (o.owner_mem [] e)).nonempty rfl) (fun s hs => (h s hs).noUp)
  refine ⟨p, hp, ?_⟩
  rw [hr]
  congr 1
  have k1 : keeps (ascii "home") = true := by decide
  have k2 : keeps (ascii "boards") = true := by decide
  have k3 : keeps (ascii "man") = true := by decide
  have k4 : keeps (ascii ".fav") = true := by decide
  have k5 : keeps (ascii "logins.recent") = true := by decide
  have k6 : keeps (ascii ".DIR") = true := by decide
  have k7 : keeps (ascii ".Name") = true := by decide
  have kd : ∀ d : Bytes, Component d → (splitByte slash (ascii "buf." ++ d)).filter keeps = [ascii "buf." ++ d] := by
    intro d hd
    rw [splitByte_of_not_mem (by rw [List.mem_append, not_or]; exact ⟨by decide, hd.noSlash⟩)]
    simp [keeps, ascii]
  have kds : ∀ ds : List Bytes, (∀ d ∈ ds, Component d) → (ds.map (splitByte slash)).flatten.filter keeps = ds := by
    intro ds hds
    induction ds with
    | nil => rfl
    | cons d ds ih =>
      have hd := hds d (by simp)
      simp [hd.split, hd.keeps, ih (fun x hx => hds x (by simp [hx]))]
  have kc : ∀ c : Bytes, Component c → (splitByte slash c).filter keeps = [c] := by
    intro c hc
    rw [hc.split]; simp [hc.keeps]
  cases o with
  | passwd => decide
  | boardList => decide
  | favourite u =>
    have h1 := h u (by simp [Obj.names])
    simp [-List.headD_eq_head?_getD, Obj.pieces, Obj.loc, k1, k4, letter_kept h1, kc u h1]
  | draft u d =>
    have h1 := h u (by simp [Obj.names])
    simp [-List.headD_eq_head?_getD, Obj.pieces, Obj.loc, k1, letter_kept h1, kc u h1, kd d (h d (by simp [Obj.names]))]
  | mail u f =>
    have h1 := h u (by simp [Obj.names])
    simp [-List.headD_eq_head?_getD, Obj.pieces, Obj.loc, k1, letter_kept h1, kc u h1, kc f (h f (by simp [Obj.names]))]
  | loginRecent u =>
    have h1 := h u (by simp [Obj.names])
    simp [-List.headD_eq_head?_getD, Obj.pieces, Obj.loc, k1, k5, letter_kept h1, kc u h1]
  | articleIndex u =>
    have h1 := h u (by simp [Obj.names])
    simp [-List.headD_eq_head?_getD, Obj.pieces, Obj.loc, k2, k6, letter_kept h1, kc u h1]
  | article u f =>
    have h1 := h u (by simp [Obj.names])
    simp [-List.headD_eq_head?_getD, Obj.pieces, Obj.loc, k2, letter_kept h1, kc u h1, kc f (h f (by simp [Obj.names]))]
  | treasureIndex u ds =>
    have h1 := h u (by simp [Obj.names])
    have h2 := kds ds (fun d hd => h d (by simp [Obj.names, hd]))
    simp only [Obj.pieces, Obj.loc, List.filter_cons, List.filter_append, k2, k3, k6, letter_kept h1, kc u h1, h2]
    simp
  | treasure u ds f =>
    have h1 := h u (by simp [Obj.names])
    have h2 := kds ds (fun d hd => h d (by simp [Obj.names, hd]))
    simp only [Obj.pieces, Obj.loc, List.filter_cons, List.filter_append, k2, k3, letter_kept h1, kc u h1, h2,
      kc f (h f (by simp [Obj.names]))]
    simp
  | boardName u =>
    have h1 := h u (by simp [Obj.names])
    simp [-List.headD_eq_head?_getD, Obj.pieces, Obj.loc, k2, k7, letter_kept h1, kc u h1]

/-- C18: every path built from single path components lies strictly below the home directory. -/
theorem C18_inside_home (cwd : Path) (home : Bytes) (o : Obj) (h : ∀ s ∈ o.names, Component s) :
    ∃ p, o.path home = .ok p ∧ Below (homeDir cwd home) (resolve cwd p) := by
  obtain ⟨p, hp, hr⟩ := o.resolve_eq cwd home
    (fun e => (h [] (o.owner_mem [] e)).nonempty rfl) (fun s hs => (h s hs).noUp)
  obtain ⟨x, xs, hx⟩ := o.kept_ne_nil
  exact ⟨p, hp, x, xs, by rw [hr, hx]⟩

/-- Non-vacuity of C18. -/
example : (∀ s ∈ (Obj.article (ascii "SYSOP") (ascii "M.1.A.000")).names, Component s) ∧
    (Obj.article (ascii "SYSOP") (ascii "M.1.A.000")).path (ascii "/bbs") =
      .ok (ascii "/bbs/boards/S/SYSOP/M.1.A.000") ∧
    resolve [] (ascii "/bbs/boards/S/SYSOP/M.1.A.000") =
      [ascii "bbs", ascii "boards", ascii "S", ascii "SYSOP", ascii "M.1.A.000"] := by
  refine ⟨?_, by decide +kernel, by decide +kernel⟩
  intro s hs
  simp only [Obj.names, List.mem_cons, List.not_mem_nil, or_false] at hs
  rcases hs with h | h <;> rw [h] <;> exact ⟨by decide, by decide, by decide, by decide⟩

/-! ## C19 -/

/-- The full claim of C19. -/
def Spec.AlwaysInside : Prop :=
  ∀ (cwd : Path) (home : Bytes) (o : Obj) (p : Bytes), o.path home = .ok p → Below (homeDir cwd home) (resolve cwd p)

/-- C19 is false of the code: ids are not checked, so a file name with `..` leaves the home directory. -/
theorem C19_inside_refuted : ¬ Spec.AlwaysInside := by
  intro h
  have hp : (Obj.article (ascii "S") (ascii "../../../../etc/passwd")).path (ascii "/bbs") =
      .ok (ascii "/bbs/boards/S/S/../../../../etc/passwd") := by decide +kernel
  obtain ⟨x, xs, e⟩ := h [] _ _ _ hp
  have e1 : resolve [] (ascii "/bbs/boards/S/S/../../../../etc/passwd") = [ascii "etc", ascii "passwd"] := by
    decide +kernel
  have e2 : homeDir [] (ascii "/bbs") = [ascii "bbs"] := by decide +kernel
  rw [e1, e2] at e
  have := congrArg List.head? e
  revert this
  simp [ascii]

theorem foldl_up (n : Nat) (d : Path) (h : d.length ≤ n) :
    (List.replicate n (ascii "..")).foldl Path.enter d = [] := by
  induction n generalizing d with
  | zero => exact List.length_eq_zero_iff.mp (Nat.le_zero.mp h)
  | succ n ih =>
    rw [List.replicate_succ, List.foldl_cons]
    apply ih
    have : d.enter (ascii "..") = d.dropLast := by
      simp [Path.enter, ascii, dot]
    rw [this, List.length_dropLast]
    omega

/-- C19, how bad it is: through a file name, the article functions reach every location of the file system. -/
theorem C19_any_target (cwd : Path) (home board : Bytes) (hb : Component board) (target : Path)
    (ht : ∀ c ∈ target, Component c) :
    ∃ file p, (Obj.article board file).path home = .ok p ∧ resolve cwd p = target := by
  obtain ⟨n, hn⟩ : ∃ n, n = (homeDir cwd home).length + 3 := ⟨_, rfl⟩
  have ho : ∀ f, (Obj.article board f).owner ≠ some [] := by
    intro f e
    exact hb.nonempty (Option.some.inj e)
  obtain ⟨rest, hp, hs⟩ := (Obj.article board (joinSlash (List.replicate n (ascii "..") ++ target ++ [[]]))).path_eq home
    (ho _)
  refine ⟨_, _, hp, ?_⟩
  have hres : resolve cwd (home ++ slash :: rest) = (splitByte slash rest).foldl Path.enter (homeDir cwd home) := by
    unfold homeDir
    by_cases hh : home = []
    · subst hh
      unfold resolve
      simp [splitByte, pathStart, Path.enter]
    · rw [if_neg hh, resolve_under hh]
  have hj := splitByte_joinSlash (List.replicate n (ascii "..") ++ target) []
  rw [List.append_nil] at hj
  have hfl : ((List.replicate n (ascii "..") ++ target).map (splitByte slash)).flatten =
      List.replicate n (ascii "..") ++ target := by
    have : ∀ c ∈ List.replicate n (ascii "..") ++ target, splitByte slash c = [c] := by
      intro c hc
      rcases List.mem_append.mp hc with h | h
      · rw [List.eq_of_mem_replicate h]; decide
      · exact (ht c h).split
    generalize List.replicate n (ascii "..") ++ target = l at this
    induction l with
    | nil => rfl
    | cons c l ih => simp [this c (by simp), ih (fun x hx => this x (by simp [hx]))]
  rw [hres, hs]
  simp only [Obj.pieces, hj, hfl]
  obtain ⟨pre, hpre⟩ : ∃ pre, pre = splitByte slash (fmtC (board.headD 0)) ++ splitByte slash board := ⟨_, rfl⟩
  rw [← hpre, List.foldl_cons, List.foldl_append, List.append_assoc, List.foldl_append, List.foldl_append]
  have hlen : (List.foldl Path.enter ((homeDir cwd home).enter (ascii "boards")) pre).length ≤ n := by
    have hlet := letter_kept hb
    have hnu : ascii ".." ∉ pre := by
      rw [hpre, List.mem_append, not_or]
      exact ⟨fmtC_noUp _, hb.noUp⟩
    rw [foldl_enter hnu, hpre, List.filter_append, hlet, hb.split]
    have e1 : ((homeDir cwd home).enter (ascii "boards")) = homeDir cwd home ++ [ascii "boards"] := by
      simp [Path.enter, ascii, dot]
    have e2 : (letterDir board).length ≤ 1 := by unfold letterDir; split <;> simp
    have e3 : ([board].filter keeps).length ≤ 1 := List.length_filter_le _ _
    rw [e1]
    simp only [List.length_append, List.length_singleton]
    omega
  rw [foldl_up n _ hlen]
  have hnu : ascii ".." ∉ target := fun hm => (ht _ hm).notDotDot rfl
  have hend : splitByte slash [] = [[]] := rfl
  rw [foldl_enter hnu, hend, List.nil_append]
  have hkt : target.filter keeps = target := List.filter_eq_self.mpr (fun c hc => (ht c hc).keeps)
  rw [hkt]
  simp [Path.enter]

/-- Non-vacuity of C19 (any target). -/
example : Component (ascii "SYSOP") ∧ ∀ c ∈ ([ascii "etc", ascii "passwd"] : Path), Component c := by
  refine ⟨⟨by decide, by decide, by decide, by decide⟩, ?_⟩
  intro c hc
  simp only [List.mem_cons, List.not_mem_nil, or_false] at hc
  rcases hc with h | h <;> rw [h] <;> exact ⟨by decide, by decide, by decide, by decide⟩

/-- C19 (partial: ids none of whose steps is `..`). Everything else a caller may supply — slashes, empty parts,
dots — stays strictly below the home directory. -/
theorem C19_inside_partial (cwd : Path) (home : Bytes) (o : Obj) (p : Bytes) (hp : o.path home = .ok p)
    (hn : ∀ s ∈ o.names, NoUp s) : Below (homeDir cwd home) (resolve cwd p) := by
  have ho : o.owner ≠ some [] := by
    intro e
    cases o <;> simp only [Obj.owner, Option.some.injEq, reduceCtorEq] at e <;> subst e <;> cases hp
  obtain ⟨p', hp', hr⟩ := o.resolve_eq cwd home ho hn
  rw [hp] at hp'
  have e := Res.ok.inj hp'
  subst e
  obtain ⟨x, xs, hx⟩ := o.kept_ne_nil
  exact ⟨x, xs, by rw [hr, hx]⟩

/-- Non-vacuity of C19 (partial): strange but harmless ids. -/
example : (∀ s ∈ (Obj.draft (ascii "/a//./b") (ascii "./..x/")).names, NoUp s) ∧
    ∃ p, (Obj.draft (ascii "/a//./b") (ascii "./..x/")).path (ascii "/bbs") = .ok p := by
  refine ⟨?_, _, rfl⟩
  intro s hs
  simp only [Obj.names, List.mem_cons, List.not_mem_nil, or_false] at hs
  rcases hs with h | h <;> rw [h] <;> unfold NoUp <;> decide

/-! ## C20 -/

/-- The directory part of an id determines it. -/
theorem dir_inj {u v : Bytes} (hu : Component u) (hv : Component v) {xs ys : Path}
    (h : letterDir u ++ u :: xs = letterDir v ++ v :: ys) : u = v ∧ xs = ys := by
  have key : ∀ {u v : Bytes}, Component u → u.head? = some dot → v.head? ≠ some dot → ∀ {xs ys : Path},
      u :: xs = fmtC (v.headD 0) :: v :: ys → False := by
    intro u v hu h1 h2 xs ys e
    injection e with e _
    cases v with
    | nil =>
      rw [e] at h1
      revert h1; decide
    | cons c cs =>
      simp only [List.headD_cons] at e
      simp only [List.head?_cons] at h2
      rcases fmtC_spec c with ⟨e1, _⟩ | ⟨x, y, e1, hx, _, _⟩
      · rw [e1] at e; rw [e] at h1; exact h2 h1
      · rw [e1] at e; rw [e] at h1
        simp only [List.head?_cons, Option.some.injEq] at h1
        subst h1; revert hx; decide
  unfold letterDir at h
  split at h <;> split at h
  · simpa using h
  · exact (key hu ‹_› ‹_› h).elim
  · exact (key hv ‹_› ‹_› h.symm).elim
  · simp only [List.cons_append, List.nil_append, List.cons.injEq] at h
    exact h.2

theorem loc_injective {o o' : Obj} (h : ∀ s ∈ o.names, Component s) (h' : ∀ s ∈ o'.names, Component s)
    (hr : o.NotReserved) (hr' : o'.NotReserved) (e : o.loc = o'.loc) : o = o' := by
  have d1 : ascii "home" ≠ ascii "boards" := by decide
  have d2 : ascii "home" ≠ ascii "man" := by decide
  have d3 : ascii "boards" ≠ ascii "man" := by decide
  have d4 : ascii "home" ≠ ascii ".PASSWDS" := by decide
  have d5 : ascii "home" ≠ ascii ".BRD" := by decide
  have d6 : ascii "boards" ≠ ascii ".PASSWDS" := by decide
  have d7 : ascii "boards" ≠ ascii ".BRD" := by decide
  have d8 : ascii "man" ≠ ascii ".PASSWDS" := by decide
  have d9 : ascii "man" ≠ ascii ".BRD" := by decide
  have d10 : ascii ".PASSWDS" ≠ ascii ".BRD" := by decide
  have d11 : ascii ".fav" ≠ ascii "logins.recent" := by decide
  have d12 : ∀ d, ascii ".fav" ≠ ascii "buf." ++ d := by intro d e; have := congrArg List.head? e; revert this; simp [ascii]
  have d13 : ∀ d, ascii "logins.recent" ≠ ascii "buf." ++ d := by
    intro d e; have := congrArg List.head? e; revert this; simp [ascii]
  have d14 : ascii ".DIR" ≠ ascii ".Name" := by decide
  cases o <;> cases o' <;>
    simp only [Obj.loc, List.cons_append, List.nil_append, List.append_assoc, List.cons.injEq, d1, d2, d3, d4, d5, d6,
      d7, d8, d9, d10, d1.symm, d2.symm, d3.symm, d4.symm, d5.symm, d6.symm, d7.symm, d8.symm, d9.symm, d10.symm,
      false_and, true_and] at e <;>
    first
      | rfl
      | (exact absurd e (by simp))
      | skip
  all_goals
    replace e := dir_inj (h _ (by simp [Obj.names])) (h' _ (by simp [Obj.names])) e
    obtain ⟨hu, e⟩ := e
    subst hu
  all_goals
    first
      | rfl
      | (simp only [List.cons.injEq, and_true, d11, d11.symm, d14, d14.symm] at e; done)
      | (simp only [List.cons.injEq, and_true] at e; first
          | exact absurd e (d12 _)
          | exact absurd e.symm (d12 _)
          | exact absurd e (d13 _)
          | exact absurd e.symm (d13 _)
          | (rw [List.append_cancel_left e])
          | exact absurd e hr.1
          | exact absurd e.symm hr'.1
          | exact absurd e hr.2
          | exact absurd e.symm hr'.2
          | exact absurd e hr.2.1
          | exact absurd e.symm hr'.2.1
          | (rw [e]; done)
          | exact absurd ⟨_, e.symm⟩ hr.2.2
          | exact absurd ⟨_, e⟩ hr'.2.2)
      | (obtain ⟨e1, e2⟩ := List.append_inj' e rfl
         simp only [List.cons.injEq, and_true] at e2
         first
          | (rw [e1, e2]; done)
          | (rw [e1]; done)
          | exact absurd e2 hr
          | exact absurd e2.symm hr')

/-- C20: two different objects named by single path components, and not by a name the library reserves for its own
files in the same directory, are stored at different locations. -/
theorem C20_distinct_objects (cwd : Path) (home : Bytes) (o o' : Obj) (h : ∀ s ∈ o.names, Component s)
    (h' : ∀ s ∈ o'.names, Component s) (hr : o.NotReserved) (hr' : o'.NotReserved) (hne : o ≠ o') :
    ∃ p p', o.path home = .ok p ∧ o'.path home = .ok p' ∧ resolve cwd p ≠ resolve cwd p' := by
  obtain ⟨p, hp, e⟩ := C18_location cwd home o h
  obtain ⟨p', hp', e'⟩ := C18_location cwd home o' h'
  refine ⟨p, p', hp, hp', ?_⟩
  rw [e, e']
  intro heq
  exact hne (loc_injective h h' hr hr' (List.append_cancel_left heq))

/-- C20, why reserved names must be excluded: a mail, article or treasure with such a name *is* the library's own
file. -/
theorem C20_reserved_names_collide (home id : Bytes) (ds : List Bytes) (d : Bytes) :
    (Obj.mail id (ascii ".fav")).path home = (Obj.favourite id).path home ∧
    (Obj.mail id (ascii "logins.recent")).path home = (Obj.loginRecent id).path home ∧
    (Obj.mail id (ascii "buf." ++ d)).path home = (Obj.draft id d).path home ∧
    (Obj.article id (ascii ".DIR")).path home = (Obj.articleIndex id).path home ∧
    (Obj.article id (ascii ".Name")).path home = (Obj.boardName id).path home ∧
    (Obj.treasure id ds (ascii ".DIR")).path home = (Obj.treasureIndex id ds).path home := by
  have a2 : ascii "/" = [slash] := by decide
  have a5 : ascii "/.fav" = slash :: ascii ".fav" := by decide
  have a6 : ascii "/buf." = slash :: ascii "buf." := by decide
  have a7 : ascii "/logins.recent" = slash :: ascii "logins.recent" := by decide
  have a8 : ascii "/.DIR" = slash :: ascii ".DIR" := by decide
  have a9 : ascii "/.Name" = slash :: ascii ".Name" := by decide
  cases id with
  | nil => exact ⟨rfl, rfl, rfl, rfl, rfl, rfl⟩
  | cons c cs =>
    refine ⟨?_, ?_, ?_, ?_, ?_, ?_⟩ <;>
      simp [Obj.path, getUserMailPath, getUserFavoritePath, getLoginRecentPath, getUserDraftPath,
        getBoardArticleFilePath, getBoardArticlesDirectoryPath, getBoardNameFilePath, getBoardTreasureFilePath,
        getBoardTreasuresDirectoryPath, firstByte, a2, a5, a6, a7, a8, a9]

/-- Non-vacuity of C20. -/
example : (∀ s ∈ (Obj.draft (ascii "Ab") (ascii "1")).names, Component s) ∧
    (Obj.draft (ascii "Ab") (ascii "1")).NotReserved ∧
    (∀ s ∈ (Obj.mail (ascii "Ab") (ascii "M.1.A")).names, Component s) ∧
    (Obj.mail (ascii "Ab") (ascii "M.1.A")).NotReserved ∧
    Obj.draft (ascii "Ab") (ascii "1") ≠ Obj.mail (ascii "Ab") (ascii "M.1.A") := by
  refine ⟨?_, trivial, ?_, ⟨by decide, by decide, by decide⟩, by simp⟩ <;>
  · intro s hs
    simp only [Obj.names, List.mem_cons, List.not_mem_nil, or_false] at hs
    rcases hs with h | h <;> rw [h] <;> exact ⟨by decide, by decide, by decide, by decide⟩

/-! ## C21 -/

/-- The full claim of C21. -/
def Spec.PathsReturn : Prop := ∀ (home : Bytes) (o : Obj), (o.path home).Returns

/-- C21 is false of the code: `userID[0]` of an empty id panics. -/
theorem C21_paths_return_refuted : ¬ Spec.PathsReturn := by
  intro h
  exact h (ascii "/bbs") (.favourite [])

/-- C21, exactly when it crashes: the user or board id is empty. No path function ever returns an error. -/
theorem C21_panics_iff (home : Bytes) (o : Obj) :
    (o.path home = .panic ↔ o.owner = some []) ∧ ∀ e, o.path home ≠ .err e := by
  by_cases h : o.owner = some []
  · have : o.path home = .panic := by
      cases o <;> simp only [Obj.owner, Option.some.injEq, reduceCtorEq] at h <;> subst h <;> rfl
    rw [this]
    exact ⟨⟨fun _ => h, fun _ => rfl⟩, fun e => by simp⟩
  · obtain ⟨rest, hp, _⟩ := o.path_eq home h
    rw [hp]
    exact ⟨⟨fun e => (by cases e), fun e => absurd e h⟩, fun e => by simp⟩

/-- C21 (partial: non-empty ids). -/
theorem C21_paths_return_partial (home : Bytes) (o : Obj) (h : o.owner ≠ some []) : ∃ p, o.path home = .ok p := by
  obtain ⟨rest, hp, _⟩ := o.path_eq home h
  exact ⟨_, hp⟩

/-- Non-vacuity of C21. -/
example : (Obj.loginRecent (ascii "x")).owner ≠ some [] := by decide

/-! ## C22 -/

/-- A slice lies within its array, and the array exists. -/
def SliceHdr.Valid (s : SliceHdr) (h : Heap) : Prop :=
  s.arr < h.next ∧ s.len ≤ s.cap ∧ s.off + s.cap ≤ (h.arrays s.arr).length

instance (s : SliceHdr) (h : Heap) : Decidable (s.Valid h) := by unfold SliceHdr.Valid; infer_instance

/-- The full claim of C22: no slice of the caller's memory changes. -/
def Spec.TreasureKeepsMemory : Prop :=
  ∀ (h : Heap) (home board : Bytes) (s t : SliceHdr), s.Valid h → t.Valid h →
    (treasureDirIn h home board s).1.view t = h.view t

/-- C22 is false of the code: with spare capacity, `append(path, "")` writes into the caller's array. Here the
caller holds `["D1","D2"]` and passes its first element. -/
theorem C22_keeps_memory_refuted : ¬ Spec.TreasureKeepsMemory := by
  intro h
  have := h ⟨fun _ => [ascii "D1", ascii "D2"], 1⟩ [] (ascii "b") ⟨0, 0, 1, 2⟩ ⟨0, 0, 2, 2⟩ (by decide) (by decide)
  revert this
  decide +kernel

/-- C22, the exact effect on memory of both functions: with no spare capacity nothing changes; otherwise only the
first unused cell of the caller's slice becomes the empty string. In all cases the slice passed is itself unchanged,
and so is every slice that does not cover that cell; and the path returned is the right one. -/
theorem C22_effect (h : Heap) (home board file : Bytes) (s : SliceHdr) (hs : s.Valid h) :
    (treasureDirIn h home board s).2 = getBoardTreasuresDirectoryPath home board (h.view s) ∧
    (treasureFileIn h home board s file).2 = getBoardTreasureFilePath home board (h.view s) file ∧
    (treasureDirIn h home board s).1 = (treasureFileIn h home board s file).1 ∧
    (treasureDirIn h home board s).1.view s = h.view s ∧
    ∀ t : SliceHdr, t.Valid h →
      (s.len = s.cap ∨ t.arr ≠ s.arr ∨ t.off + t.len ≤ s.off + s.len ∨ s.off + s.len < t.off) →
      (treasureDirIn h home board s).1.view t = h.view t := by
  obtain ⟨h1, h2, h3⟩ := hs
  have hview : ((h.append s []).1).view (h.append s []).2 = h.view s ++ [[]] := by
    unfold Heap.append
    by_cases hc : s.len < s.cap
    · rw [if_pos hc]
      simp only [Heap.view, if_true]
      rw [List.take_succ_eq_append_getElem (by simp; omega)]
      congr 1
      · apply List.ext_getElem?
        intro k
        by_cases hk : k < s.len
        · rw [List.getElem?_take_of_lt hk, List.getElem?_take_of_lt hk, List.getElem?_drop, List.getElem?_drop,
            List.getElem?_set_ne (by omega)]
        · rw [List.getElem?_take_eq_none (by omega), List.getElem?_take_eq_none (by omega)]
      · simp
    · rw [if_neg hc]
      have hl : (h.view s).length = s.len := by simp [Heap.view]; omega
      simp only [Heap.view, if_true, List.drop_zero]
      rw [List.take_of_length_le]
      simp only [List.length_append, List.length_singleton]
      have := hl
      simp only [Heap.view] at this
      omega
  have hother : ∀ t : SliceHdr, t.Valid h →
      (s.len = s.cap ∨ t.arr ≠ s.arr ∨ t.off + t.len ≤ s.off + s.len ∨ s.off + s.len < t.off) →
      ((h.append s []).1).view t = h.view t := by
    intro t ht hd
    unfold Heap.append
    by_cases hc : s.len < s.cap
    · rw [if_pos hc]
      simp only [Heap.view]
      by_cases ha : t.arr = s.arr
      · rw [if_pos ha]
        apply List.ext_getElem?
        intro k
        by_cases hk : k < t.len
        · rw [List.getElem?_take_of_lt hk, List.getElem?_take_of_lt hk, List.getElem?_drop, List.getElem?_drop,
            List.getElem?_set_ne]
          rcases hd with hd | hd | hd | hd
          · omega
          · exact absurd ha hd
          · omega
          · omega
        · rw [List.getElem?_take_eq_none (by omega), List.getElem?_take_eq_none (by omega)]
      · rw [if_neg ha]
    · rw [if_neg hc]
      simp only [Heap.view]
      have := ht.1
      rw [if_neg (by omega)]
  refine ⟨?_, ?_, rfl, ?_, hother⟩
  · simp only [treasureDirIn, getBoardTreasuresDirectoryPath, hview]
  · simp only [treasureFileIn, getBoardTreasureFilePath, hview]
  · exact hother s ⟨h1, h2, h3⟩ (Or.inr (Or.inr (Or.inl (Nat.le_refl _))))

/-- C22 (partial: slices without spare capacity, e.g. slice literals). Nothing in the caller's memory changes. -/
theorem C22_keeps_memory_partial (h : Heap) (home board : Bytes) (s t : SliceHdr) (hs : s.Valid h) (ht : t.Valid h)
    (hfull : s.len = s.cap) : (treasureDirIn h home board s).1.view t = h.view t :=
  (C22_effect h home board [] s hs).2.2.2.2 t ht (Or.inl hfull)

/-- Non-vacuity of C22. -/
example : (⟨0, 0, 2, 2⟩ : SliceHdr).Valid ⟨fun _ => [ascii "D1", ascii "D2"], 1⟩ ∧
    (treasureDirIn ⟨fun _ => [ascii "D1", ascii "D2"], 1⟩ (ascii "/bbs") (ascii "b") ⟨0, 0, 2, 2⟩).2 =
      .ok (ascii "/bbs/man/boards/b/b/D1/D2/.DIR") := by
  constructor
  · decide
  · decide +kernel

end Verif
