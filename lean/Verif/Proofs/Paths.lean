import Verif.Spec.Paths
/-!
# Where each object's path resolves to
-/

namespace Verif
open Spec

/-- Does resolution go down into this component? -/
def keeps (c : Bytes) : Bool := decide (c ≠ [] ∧ c ≠ [dot])

theorem foldl_enter {cs : List Bytes} (h : ascii ".." ∉ cs) (d : Path) :
    cs.foldl Path.enter d = d ++ cs.filter keeps := by
  induction cs generalizing d with
  | nil => simp
  | cons c cs ih =>
    rw [List.mem_cons, not_or] at h
    rw [List.foldl_cons, ih h.2, List.filter_cons]
    unfold Path.enter keeps
    have h1 : c ≠ [dot, dot] := fun e => h.1 (by rw [e]; decide)
    by_cases hc : c = [] ∨ c = [dot]
    · rw [if_pos hc]
      have : ¬ (c ≠ [] ∧ c ≠ [dot]) := by
        rintro ⟨a, b⟩; rcases hc with h | h
        · exact a h
        · exact b h
      simp [this]
    · rw [if_neg hc, if_neg h1]
      have : (c ≠ [] ∧ c ≠ [dot]) := not_or.mp hc
      simp [this]

theorem fmtC_spec (b : UInt8) : fmtC b = [b] ∧ b < 0x80 ∨
    ∃ x y : UInt8, fmtC b = [x, y] ∧ 0xC0 ≤ x ∧ 0x80 ≤ y ∧ 0x80 ≤ b := by
  have h : ∀ b : UInt8, (fmtC b = [b] ∧ b < 0x80) ∨
      (fmtC b = [(0xC0 : UInt8) ||| (b >>> 6), (0x80 : UInt8) ||| (b &&& 0x3F)] ∧
        (0xC0 : UInt8) ≤ ((0xC0 : UInt8) ||| (b >>> 6)) ∧ (0x80 : UInt8) ≤ ((0x80 : UInt8) ||| (b &&& 0x3F)) ∧
        0x80 ≤ b) := by
    have : ∀ n : Fin 256, (fmtC (UInt8.ofNat n.val) = [UInt8.ofNat n.val] ∧ UInt8.ofNat n.val < 0x80) ∨
      (fmtC (UInt8.ofNat n.val) = [(0xC0 : UInt8) ||| (UInt8.ofNat n.val >>> 6), (0x80 : UInt8) ||| (UInt8.ofNat n.val &&& 0x3F)] ∧
        (0xC0 : UInt8) ≤ ((0xC0 : UInt8) ||| (UInt8.ofNat n.val >>> 6)) ∧
        (0x80 : UInt8) ≤ ((0x80 : UInt8) ||| (UInt8.ofNat n.val &&& 0x3F)) ∧ 0x80 ≤ UInt8.ofNat n.val) := by
      decide +kernel
    intro b
    have hb := this ⟨b.toNat, b.toNat_lt⟩
    simpa using hb
  rcases h b with h | h
  · exact Or.inl h
  · exact Or.inr ⟨_, _, h⟩

/-- The letter directory never goes up. -/
theorem fmtC_noUp (b : UInt8) : NoUp (fmtC b) := by
  unfold NoUp
  rcases fmtC_spec b with ⟨h, _⟩ | ⟨x, y, h, hx, hy, _⟩
  · rw [h]
    by_cases hb : b = slash
    · subst hb; decide
    · rw [splitByte_of_not_mem (by simpa using Ne.symm hb)]
      simp [ascii]
  · have h1 : slash ≠ x := by intro e; subst e; revert hx; decide
    have h2 : slash ≠ y := by intro e; subst e; revert hy; decide
    rw [h, splitByte_of_not_mem (by simp [h1, h2])]
    intro hm
    have e := List.mem_singleton.mp hm
    have e1 : x = 46 := by
      have := congrArg List.head? e
      simpa [ascii] using this.symm
    subst e1
    revert hx; decide

theorem fmtC_noSlash {b : UInt8} (hb : b ≠ slash) : slash ∉ fmtC b := by
  rcases fmtC_spec b with ⟨h, _⟩ | ⟨x, y, h, hx, hy, _⟩
  · rw [h]; simpa using Ne.symm hb
  · have h1 : slash ≠ x := by intro e; subst e; revert hx; decide
    have h2 : slash ≠ y := by intro e; subst e; revert hy; decide
    rw [h]; simp [h1, h2]

/-- Splitting after a prefix without the separator. -/
theorem splitByte_prefix {b : UInt8} {x : Bytes} (hx : b ∉ x) (y : Bytes) :
    ∃ h t, splitByte b y = h :: t ∧ splitByte b (x ++ y) = (x ++ h) :: t := by
  induction x with
  | nil =>
    cases hy : splitByte b y with
    | nil => exact absurd hy (splitByte_ne_nil b y)
    | cons h t => exact ⟨h, t, rfl, hy⟩
  | cons c cs ih =>
    rw [List.mem_cons, not_or] at hx
    obtain ⟨h, t, e1, e2⟩ := ih hx.2
    refine ⟨h, t, e1, ?_⟩
    simp only [List.cons_append, splitByte, if_neg (Ne.symm hx.1), e2]

/-- The pieces of `d1/d2/…/dn/rest`. -/
theorem splitByte_joinSlash (ds : List Bytes) (rest : Bytes) :
    splitByte slash (joinSlash (ds ++ [[]]) ++ rest) = (ds.map (splitByte slash)).flatten ++ splitByte slash rest := by
  induction ds with
  | nil => rfl
  | cons d ds ih =>
    have e : joinSlash ((d :: ds) ++ [[]]) = d ++ slash :: joinSlash (ds ++ [[]]) := by
      cases ds <;> rfl
    rw [e, List.append_assoc, List.cons_append, splitByte_sep, ih]
    simp

/-- The components after the home directory. -/
def Spec.Obj.pieces (o : Obj) : List Bytes :=
  let letter (u : Bytes) : List Bytes := splitByte slash (fmtC (u.headD 0))
  match o with
  | .passwd => [ascii ".PASSWDS"]
  | .boardList => [ascii ".BRD"]
  | .favourite u => ascii "home" :: (letter u ++ splitByte slash u ++ [ascii ".fav"])
  | .draft u d => ascii "home" :: (letter u ++ splitByte slash u ++ splitByte slash (ascii "buf." ++ d))
  | .mail u f => ascii "home" :: (letter u ++ splitByte slash u ++ splitByte slash f)
  | .loginRecent u => ascii "home" :: (letter u ++ splitByte slash u ++ [ascii "logins.recent"])
  | .articleIndex b => ascii "boards" :: (letter b ++ splitByte slash b ++ [ascii ".DIR"])
  | .article b f => ascii "boards" :: (letter b ++ splitByte slash b ++ splitByte slash f)
  | .treasureIndex b ds => ascii "man" :: ascii "boards" :: (letter b ++ splitByte slash b ++
      ((ds.map (splitByte slash)).flatten ++ [ascii ".DIR"]))
  | .treasure b ds f => ascii "man" :: ascii "boards" :: (letter b ++ splitByte slash b ++
      ((ds.map (splitByte slash)).flatten ++ splitByte slash f))
  | .boardName b => ascii "boards" :: (letter b ++ splitByte slash b ++ [ascii ".Name"])

theorem splitByte_lit {x : Bytes} (h : slash ∉ x) (y : Bytes) :
    splitByte slash (x ++ slash :: y) = x :: splitByte slash y := by
  rw [splitByte_sep, splitByte_of_not_mem h]; rfl

/-- The path string of an object. -/
theorem Spec.Obj.path_eq (home : Bytes) (o : Obj) (h : o.owner ≠ some []) :
    ∃ rest, o.path home = .ok (home ++ slash :: rest) ∧ splitByte slash rest = o.pieces := by
  have a1 : ascii "/home/" = slash :: (ascii "home" ++ [slash]) := by decide
  have a2 : ascii "/" = [slash] := by decide
  have a3 : ascii "/boards/" = slash :: (ascii "boards" ++ [slash]) := by decide
  have a4 : ascii "/man/boards/" = slash :: (ascii "man" ++ slash :: (ascii "boards" ++ [slash])) := by decide
  have a5 : ascii "/.fav" = slash :: ascii ".fav" := by decide
  have a6 : ascii "/buf." = slash :: ascii "buf." := by decide
  have a7 : ascii "/logins.recent" = slash :: ascii "logins.recent" := by decide
  have a8 : ascii "/.DIR" = slash :: ascii ".DIR" := by decide
  have a9 : ascii "/.Name" = slash :: ascii ".Name" := by decide
  have s1 : slash ∉ ascii "home" := by decide
  have s2 : slash ∉ ascii "boards" := by decide
  have s3 : slash ∉ ascii "man" := by decide
  have t1 : splitByte slash (ascii ".fav") = [ascii ".fav"] := by decide
  have t2 : splitByte slash (ascii "logins.recent") = [ascii "logins.recent"] := by decide
  have t3 : splitByte slash (ascii ".DIR") = [ascii ".DIR"] := by decide
  have t4 : splitByte slash (ascii ".Name") = [ascii ".Name"] := by decide
  cases o with
  | passwd => exact ⟨ascii ".PASSWDS", rfl, by decide⟩
  | boardList => exact ⟨ascii ".BRD", rfl, by decide⟩
  | favourite u =>
    cases u with
    | nil => exact absurd rfl h
    | cons c cs =>
      refine ⟨ascii "home" ++ slash :: (fmtC c ++ slash :: ((c :: cs) ++ slash :: ascii ".fav")), ?_, ?_⟩
      · simp [Obj.path, getUserFavoritePath, firstByte, a1, a2, a5]
      · rw [splitByte_lit s1, splitByte_sep, splitByte_sep, t1]; simp [Obj.pieces]
  | draft u d =>
    cases u with
    | nil => exact absurd rfl h
    | cons c cs =>
      refine ⟨ascii "home" ++ slash :: (fmtC c ++ slash :: ((c :: cs) ++ slash :: (ascii "buf." ++ d))), ?_, ?_⟩
      · simp [Obj.path, getUserDraftPath, firstByte, a1, a2, a6]
      · rw [splitByte_lit s1, splitByte_sep, splitByte_sep]; simp [Obj.pieces]
  | mail u f =>
    cases u with
    | nil => exact absurd rfl h
    | cons c cs =>
      refine ⟨ascii "home" ++ slash :: (fmtC c ++ slash :: ((c :: cs) ++ slash :: f)), ?_, ?_⟩
      · simp [Obj.path, getUserMailPath, firstByte, a1, a2]
      · rw [splitByte_lit s1, splitByte_sep, splitByte_sep]; simp [Obj.pieces]
  | loginRecent u =>
    cases u with
    | nil => exact absurd rfl h
    | cons c cs =>
      refine ⟨ascii "home" ++ slash :: (fmtC c ++ slash :: ((c :: cs) ++ slash :: ascii "logins.recent")), ?_, ?_⟩
      · simp [Obj.path, getLoginRecentPath, firstByte, a1, a2, a7]
      · rw [splitByte_lit s1, splitByte_sep, splitByte_sep, t2]; simp [Obj.pieces]
  | articleIndex b =>
    cases b with
    | nil => exact absurd rfl h
    | cons c cs =>
      refine ⟨ascii "boards" ++ slash :: (fmtC c ++ slash :: ((c :: cs) ++ slash :: ascii ".DIR")), ?_, ?_⟩
      · simp [Obj.path, getBoardArticlesDirectoryPath, firstByte, a3, a2, a8]
      · rw [splitByte_lit s2, splitByte_sep, splitByte_sep, t3]; simp [Obj.pieces]
  | article b f =>
    cases b with
    | nil => exact absurd rfl h
    | cons c cs =>
      refine ⟨ascii "boards" ++ slash :: (fmtC c ++ slash :: ((c :: cs) ++ slash :: f)), ?_, ?_⟩
      · simp [Obj.path, getBoardArticleFilePath, firstByte, a3, a2]
      · rw [splitByte_lit s2, splitByte_sep, splitByte_sep]; simp [Obj.pieces]
  | treasureIndex b ds =>
    cases b with
    | nil => exact absurd rfl h
    | cons c cs =>
      refine ⟨ascii "man" ++ slash :: (ascii "boards" ++ slash :: (fmtC c ++ slash :: ((c :: cs) ++
        slash :: (joinSlash (ds ++ [[]]) ++ ascii ".DIR")))), ?_, ?_⟩
      · simp [Obj.path, getBoardTreasuresDirectoryPath, firstByte, a4, a2]
      · rw [splitByte_lit s3, splitByte_lit s2, splitByte_sep, splitByte_sep, splitByte_joinSlash, t3]
        simp [Obj.pieces]
  | treasure b ds f =>
    cases b with
    | nil => exact absurd rfl h
    | cons c cs =>
      refine ⟨ascii "man" ++ slash :: (ascii "boards" ++ slash :: (fmtC c ++ slash :: ((c :: cs) ++
        slash :: (joinSlash (ds ++ [[]]) ++ f)))), ?_, ?_⟩
      · simp [Obj.path, getBoardTreasureFilePath, firstByte, a4, a2]
      · rw [splitByte_lit s3, splitByte_lit s2, splitByte_sep, splitByte_sep, splitByte_joinSlash]
        simp [Obj.pieces]
  | boardName b =>
    cases b with
    | nil => exact absurd rfl h
    | cons c cs =>
      refine ⟨ascii "boards" ++ slash :: (fmtC c ++ slash :: ((c :: cs) ++ slash :: ascii ".Name")), ?_, ?_⟩
      · simp [Obj.path, getBoardNameFilePath, firstByte, a3, a2, a9]
      · rw [splitByte_lit s2, splitByte_sep, splitByte_sep, t4]; simp [Obj.pieces]

/-- No piece goes up if none of the caller's strings does. -/
theorem Spec.Obj.pieces_noUp (o : Obj) (h : ∀ s ∈ o.names, NoUp s) : ascii ".." ∉ o.pieces := by
  have hd : ∀ d : Bytes, NoUp d → ascii ".." ∉ splitByte slash (ascii "buf." ++ d) := by
    intro d hd
    obtain ⟨x, t, e1, e2⟩ := splitByte_prefix (b := slash) (x := ascii "buf.") (by decide) d
    unfold NoUp at hd
    rw [e1, List.mem_cons, not_or] at hd
    rw [e2, List.mem_cons, not_or]
    refine ⟨?_, hd.2⟩
    intro e
    have := congrArg List.head? e
    revert this
    simp [ascii]
  have hds : ∀ ds : List Bytes, (∀ s ∈ ds, NoUp s) → ascii ".." ∉ (ds.map (splitByte slash)).flatten := by
    intro ds hds hm
    obtain ⟨l, hl, hm⟩ := List.mem_flatten.mp hm
    obtain ⟨d, hdm, rfl⟩ := List.mem_map.mp hl
    exact hds d hdm hm
  have l1 : ascii ".." ≠ ascii "home" := by decide
  have l2 : ascii ".." ≠ ascii "boards" := by decide
  have l3 : ascii ".." ≠ ascii "man" := by decide
  have l4 : ascii ".." ≠ ascii ".fav" := by decide
  have l5 : ascii ".." ≠ ascii "logins.recent" := by decide
  have l6 : ascii ".." ≠ ascii ".DIR" := by decide
  have l7 : ascii ".." ≠ ascii ".Name" := by decide
  have lf := fun b => fmtC_noUp b
  unfold NoUp at lf
  cases o with
  | passwd => decide
  | boardList => decide
  | favourite u =>
    have h1 := h u (by simp [Obj.names])
    unfold NoUp at h1
    simp only [Obj.pieces, List.mem_cons, List.mem_append, List.not_mem_nil, or_false, not_or]
    exact ⟨l1, ⟨lf _, h1⟩, l4⟩
  | draft u d =>
    have h1 := h u (by simp [Obj.names])
    have h2 := h d (by simp [Obj.names])
    unfold NoUp at h1
    simp only [Obj.pieces, List.mem_cons, List.mem_append, not_or]
    exact ⟨l1, ⟨lf _, h1⟩, hd d h2⟩
  | mail u f =>
    have h1 := h u (by simp [Obj.names])
    have h2 := h f (by simp [Obj.names])
    unfold NoUp at h1 h2
    simp only [Obj.pieces, List.mem_cons, List.mem_append, not_or]
    exact ⟨l1, ⟨lf _, h1⟩, h2⟩
  | loginRecent u =>
    have h1 := h u (by simp [Obj.names])
    unfold NoUp at h1
    simp only [Obj.pieces, List.mem_cons, List.mem_append, List.not_mem_nil, or_false, not_or]
    exact ⟨l1, ⟨lf _, h1⟩, l5⟩
  | articleIndex u =>
    have h1 := h u (by simp [Obj.names])
    unfold NoUp at h1
    simp only [Obj.pieces, List.mem_cons, List.mem_append, List.not_mem_nil, or_false, not_or]
    exact ⟨l2, ⟨lf _, h1⟩, l6⟩
  | article u f =>
    have h1 := h u (by simp [Obj.names])
    have h2 := h f (by simp [Obj.names])
    unfold NoUp at h1 h2
    simp only [Obj.pieces, List.mem_cons, List.mem_append, not_or]
    exact ⟨l2, ⟨lf _, h1⟩, h2⟩
  | treasureIndex u ds =>
    have h1 := h u (by simp [Obj.names])
    have h2 := hds ds (fun s hs => h s (by simp [Obj.names, hs]))
    unfold NoUp at h1
    simp only [Obj.pieces, List.mem_cons, List.mem_append, List.not_mem_nil, or_false, not_or]
    exact ⟨l3, l2, ⟨lf _, h1⟩, h2, l6⟩
  | treasure u ds f =>
    have h1 := h u (by simp [Obj.names])
    have h3 := h f (by simp [Obj.names])
    have h2 := hds ds (fun s hs => h s (by simp [Obj.names, hs]))
    unfold NoUp at h1 h3
    simp only [Obj.pieces, List.mem_cons, List.mem_append, not_or]
    exact ⟨l3, l2, ⟨lf _, h1⟩, h2, h3⟩
  | boardName u =>
    have h1 := h u (by simp [Obj.names])
    unfold NoUp at h1
    simp only [Obj.pieces, List.mem_cons, List.mem_append, List.not_mem_nil, or_false, not_or]
    exact ⟨l2, ⟨lf _, h1⟩, l7⟩

theorem Spec.Component.split {c : Bytes} (h : Component c) : splitByte slash c = [c] :=
  splitByte_of_not_mem h.noSlash

theorem Spec.Component.noUp {c : Bytes} (h : Component c) : NoUp c := by
  unfold NoUp
  rw [h.split]
  intro hm
  exact h.notDotDot (List.mem_singleton.mp hm).symm

theorem Spec.Component.keeps {c : Bytes} (h : Component c) : keeps c = true := by
  have h2 : c ≠ [dot] := fun e => h.notDot (by rw [e]; decide)
  simp [Verif.keeps, h.nonempty, h2]

end Verif
