import Verif.Model.Connector
import Verif.Props.Lists
import Verif.Props.Fav
/-!
# C30, C31, C36: opening a database, favourites with board names
-/

namespace Verif
open Spec

/-! ## C31 -/

/-- C31: a `file://` name selects everything up to the first `?`; any other name is the home itself. -/
theorem C31_home :
    (∀ h : Bytes, (63 : UInt8) ∉ h → dsnHome (ascii "file://" ++ h) = h) ∧
    (∀ h args : Bytes, (63 : UInt8) ∉ h → dsnHome (ascii "file://" ++ h ++ 63 :: args) = h) ∧
    (∀ p : Bytes, ¬ ascii "file://" <+: p → dsnHome p = p) := by
  have hp : ∀ x : Bytes, (ascii "file://").isPrefixOf (ascii "file://" ++ x) = true := by
    intro x
    rw [List.isPrefixOf_iff_prefix]
    exact List.prefix_append _ _
  have hd : ∀ x : Bytes, (ascii "file://" ++ x).drop 7 = x := by
    intro x
    exact List.drop_left' (by decide)
  refine ⟨?_, ?_, ?_⟩
  · intro h h0
    rw [dsnHome, if_pos (hp h), hd, splitByte_of_not_mem h0]
    rfl
  · intro h args h0
    rw [List.append_assoc, dsnHome, if_pos (hp _), hd, splitByte_sep, splitByte_of_not_mem h0]
    rfl
  · intro p h
    rw [dsnHome, if_neg (by rw [List.isPrefixOf_iff_prefix]; exact h)]

/-- Non-vacuity of C31. -/
example : (63 : UInt8) ∉ ascii "/home/bbs/" ∧ dsnHome (ascii "file:///home/bbs/?UTMP=1993&a=?") = ascii "/home/bbs/" ∧
    ¬ ascii "file://" <+: ascii "/home/bbs?x" ∧ dsnHome (ascii "/home/bbs?x") = ascii "/home/bbs?x" := by decide

/-! ## C30 -/

/-- The home a database (a pointer to its connector) uses. -/
def Spec.homeOf (r : Registry) (h : Nat) : Bytes := r.home h

/-- The full claim of C30: opening another database leaves the home of an earlier one. -/
def Spec.OpensIndependent : Prop :=
  ∀ (r r1 r2 : Registry) (n1 n2 d1 d2 : Bytes) (h1 h2 : Nat), r.openDB n1 d1 = .ok (h1, r1) →
    r1.openDB n2 d2 = .ok (h2, r2) → homeOf r2 h1 = homeOf r1 h1

/-- What can happen to the registry. -/
inductive Spec.RegOp where
  | register (name : Bytes) (conn : Nat)
  | openDB (name dsn : Bytes)
  deriving DecidableEq

/-- The registry after an operation (a failed open changes nothing). -/
def Spec.RegOp.exec (r : Registry) : RegOp → Registry
  | .register n k => r.register n k
  | .openDB n d => match r.openDB n d with
    | .ok (_, r') => r'
    | _ => r

/-- The operation opens a database over the connector `h`. -/
def Spec.RegOp.Reopens (r : Registry) (h : Nat) : RegOp → Prop
  | .openDB n _ => r.drivers n = some h
  | .register _ _ => False

/-- No operation of the history opens a database over the connector `h`. -/
def Spec.NotReopened (h : Nat) : Registry → List RegOp → Prop
  | _, [] => True
  | r, op :: ops => ¬ op.Reopens r h ∧ NotReopened h (op.exec r) ops

def Spec.RegOp.execAll (r : Registry) (ops : List RegOp) : Registry := ops.foldl RegOp.exec r

theorem openDB_eq (r : Registry) (n d : Bytes) (h : Nat) (r' : Registry) : r.openDB n d = .ok (h, r') ↔
    r.drivers n = some h ∧ r' = { r with home := fun k => if k = h then dsnHome d else r.home k } := by
  unfold Registry.openDB
  cases hn : r.drivers n with
  | none => simp
  | some k =>
    simp only [Res.ok.injEq, Prod.mk.injEq, Option.some.injEq]
    constructor
    · rintro ⟨rfl, rfl⟩; exact ⟨rfl, rfl⟩
    · rintro ⟨rfl, rfl⟩; exact ⟨rfl, rfl⟩

/-- C30 (partial): the home of a database stays what was asked for as long as nobody opens another database over the
same connector. What is missing: the other case, where the home becomes that of the newer database, see
`C30_second_open_takes_over`. -/
theorem C30_independent_partial (r r1 : Registry) (n d : Bytes) (h : Nat) (ho : r.openDB n d = .ok (h, r1))
    (ops : List RegOp) (hr : NotReopened h r1 ops) : homeOf (RegOp.execAll r1 ops) h = dsnHome d := by
  have h1 : r1.home h = dsnHome d := by
    obtain ⟨_, rfl⟩ := (openDB_eq r n d h r1).mp ho
    simp
  clear ho
  induction ops generalizing r1 with
  | nil => exact h1
  | cons op ops ih =>
    refine ih (op.exec r1) hr.2 ?_
    cases op with
    | register n k => exact h1
    | openDB n d' =>
      show (match r1.openDB n d' with | .ok (_, r') => r' | _ => r1).home h = _
      cases hn : r1.openDB n d' with
      | ok x =>
        obtain ⟨k, r'⟩ := x
        obtain ⟨g1, g2⟩ := (openDB_eq r1 n d' k r').mp hn
        subst g2
        have hne : h ≠ k := by
          intro e; subst e
          exact hr.1 g1
        show (if h = k then _ else _) = _
        rw [if_neg hne, h1]
      | err e => exact h1
      | panic => exact h1
      | diverge => exact h1

/-- C30, the other case: after a second open under the same driver name, the first database works on the home of the
second. -/
theorem C30_second_open_takes_over (r r1 r2 : Registry) (n d1 d2 : Bytes) (h1 h2 : Nat)
    (ho : r.openDB n d1 = .ok (h1, r1)) (ho2 : r1.openDB n d2 = .ok (h2, r2)) :
    h2 = h1 ∧ homeOf r2 h1 = dsnHome d2 := by
  obtain ⟨g1, rfl⟩ := (openDB_eq r n d1 h1 r1).mp ho
  obtain ⟨g2, rfl⟩ := (openDB_eq _ n d2 h2 r2).mp ho2
  have e : h2 = h1 := by
    have g2 : r.drivers n = some h2 := g2
    rw [g1] at g2
    exact (Option.some.inj g2).symm
  subst e
  exact ⟨rfl, by simp [homeOf]⟩

/-- The registry after `init` — /repo/pttbbs/pttbbs.go:16-18. -/
def initRegistry : Registry := Registry.register ⟨fun _ => none, fun _ => []⟩ (ascii "pttbbs") 1

/-- C30 is false of the code: all databases of a driver share one connector. -/
theorem C30_independent_refuted : ¬ OpensIndependent := by
  intro h
  have := h initRegistry _ _ (ascii "pttbbs") (ascii "pttbbs") (ascii "/a") (ascii "/b") 1 1
    ((openDB_eq _ _ _ _ _).mpr ⟨by decide, rfl⟩) ((openDB_eq _ _ _ _ _).mpr ⟨by decide, rfl⟩)
  revert this
  decide

/-- Non-vacuity of the partial: a second driver is opened in between. -/
example : NotReopened 1 (initRegistry.register (ascii "other") 2) [.openDB (ascii "other") (ascii "/b"),
    .register (ascii "pttbbs") 3, .openDB (ascii "pttbbs") (ascii "/c")] := by
  refine ⟨?_, ?_, ?_, trivial⟩
  · show (initRegistry.register (ascii "other") 2).drivers (ascii "other") ≠ some 1
    decide
  · exact id
  · show _ ≠ some 1
    decide

/-! ## C36 -/

/-- The name of the board with the given (1-based) number. -/
def Spec.boardName (brd : List BoardHeader) (id : UInt32) : Bytes :=
  match brd[id.toNat - 1]? with
  | some h => h.brdName
  | none => []

/-- The number is that of a board. -/
def Spec.BoardExists (brd : List BoardHeader) (id : UInt32) : Prop := 1 ≤ id.toNat ∧ id.toNat ≤ brd.length

mutual
/-- The tree with the name of every board filled in, everything else as it was. -/
def Spec.nameFolder (brd : List BoardHeader) : FavFolder → FavFolder
  | .mk na dt nb nl nf li fi items => .mk na dt nb nl nf li fi (nameItems brd items)
def Spec.nameItems (brd : List BoardHeader) : List FavItem → List FavItem
  | [] => []
  | .mk t a (.board b v at' _) :: rest => .mk t a (.board b v at' (boardName brd b)) :: nameItems brd rest
  | .mk t a (.folder id title (some f)) :: rest => .mk t a (.folder id title (some (nameFolder brd f))) :: nameItems brd rest
  | .mk t a (.folder id title none) :: rest => .mk t a (.folder id title none) :: nameItems brd rest
  | .mk t a (.line id) :: rest => .mk t a (.line id) :: nameItems brd rest
  | .mk t a .nil :: rest => .mk t a .nil :: nameItems brd rest
end

mutual
/-- Every board entry, at any depth, satisfies `P`, and every folder is there. -/
def Spec.EveryBoard (P : UInt32 → Prop) : FavFolder → Prop
  | .mk _ _ _ _ _ _ _ items => EveryBoardIn P items
def Spec.EveryBoardIn (P : UInt32 → Prop) : List FavItem → Prop
  | [] => True
  | .mk _ _ (.board b _ _ _) :: rest => P b ∧ EveryBoardIn P rest
  | .mk _ _ (.folder _ _ (some f)) :: rest => EveryBoard P f ∧ EveryBoardIn P rest
  | .mk _ _ (.folder _ _ none) :: _ => False
  | .mk _ _ (.line _) :: rest => EveryBoardIn P rest
  | .mk _ _ .nil :: rest => EveryBoardIn P rest
end

theorem index_lookup {brd : List BoardHeader} (hb : brd.length < 2 ^ 32) (id : UInt32) :
    (BoardExists brd id ∧ ∃ h, brd[(id - 1).toNat]? = some h ∧ boardName brd id = h.brdName) ∨
    (¬ BoardExists brd id ∧ brd[(id - 1).toNat]? = none) := by
  have hlt := id.toNat_lt
  by_cases h0 : id.toNat = 0
  · right
    refine ⟨fun h => by have := h.1; omega, ?_⟩
    have e : id = 0 := UInt32.toNat_inj.mp h0
    subst e
    apply List.getElem?_eq_none
    have : ((0 : UInt32) - 1).toNat = 4294967295 := by decide
    rw [this]; omega
  · have e : (id - 1).toNat = id.toNat - 1 := by
      rw [UInt32.toNat_sub_of_le]
      · rfl
      · rw [UInt32.le_iff_toNat_le]; show 1 ≤ _; omega
    rw [e]
    by_cases h1 : id.toNat ≤ brd.length
    · left
      have hi : id.toNat - 1 < brd.length := by omega
      refine ⟨⟨by omega, h1⟩, brd[id.toNat - 1], List.getElem?_eq_getElem hi, ?_⟩
      simp [boardName, List.getElem?_eq_getElem hi]
    · right
      refine ⟨fun h => h1 h.2, List.getElem?_eq_none (by omega)⟩

mutual
theorem resolve_folder (brd : List BoardHeader) (hb : brd.length < 2 ^ 32) (f : FavFolder) :
    (EveryBoard (BoardExists brd) f → f.resolve brd = .ok (nameFolder brd f)) ∧
    (¬ EveryBoard (BoardExists brd) f → f.resolve brd = .panic) := by
  match f with
  | .mk na dt nb nl nf li fi items =>
    obtain ⟨h1, h2⟩ := resolve_items brd hb items
    constructor
    · intro h
      rw [FavFolder.resolve, h1 (by simpa [EveryBoard] using h), nameFolder]
      rfl
    · intro h
      rw [FavFolder.resolve, h2 (by simpa [EveryBoard] using h)]
      rfl
theorem resolve_items (brd : List BoardHeader) (hb : brd.length < 2 ^ 32) (items : List FavItem) :
    (EveryBoardIn (BoardExists brd) items → resolveItems brd items = .ok (nameItems brd items)) ∧
    (¬ EveryBoardIn (BoardExists brd) items → resolveItems brd items = .panic) := by
  match items with
  | [] => exact ⟨fun _ => by simp [resolveItems, nameItems], fun h => absurd (by simp [EveryBoardIn]) h⟩
  | .mk t a (.board b v at' nm) :: rest =>
    obtain ⟨h1, h2⟩ := resolve_items brd hb rest
    rcases index_lookup hb b with ⟨k1, x, k2, k3⟩ | ⟨k1, k2⟩
    · constructor
      · intro h
        rw [EveryBoardIn] at h
        simp [resolveItems, nameItems, k2, h1 h.2, k3]
      · intro h
        rw [EveryBoardIn] at h
        have : ¬ EveryBoardIn (BoardExists brd) rest := fun hr => h ⟨k1, hr⟩
        simp [resolveItems, k2, h2 this]
    · constructor
      · intro h
        rw [EveryBoardIn] at h
        exact absurd h.1 k1
      · intro _
        simp [resolveItems, k2]
  | .mk t a (.folder id title (some f)) :: rest =>
    obtain ⟨h1, h2⟩ := resolve_items brd hb rest
    obtain ⟨g1, g2⟩ := resolve_folder brd hb f
    constructor
    · intro h
      rw [EveryBoardIn] at h
      simp [resolveItems, nameItems, g1 h.1, h1 h.2]
    · intro h
      rw [EveryBoardIn] at h
      by_cases hf : EveryBoard (BoardExists brd) f
      · have : ¬ EveryBoardIn (BoardExists brd) rest := fun hr => h ⟨hf, hr⟩
        simp [resolveItems, g1 hf, h2 this]
      · simp [resolveItems, g2 hf]
  | .mk t a (.folder id title none) :: rest =>
    constructor
    · intro h
      rw [EveryBoardIn] at h
      exact h.elim
    · intro _
      simp [resolveItems]
  | .mk t a (.line id) :: rest =>
    obtain ⟨h1, h2⟩ := resolve_items brd hb rest
    constructor
    · intro h
      rw [EveryBoardIn] at h
      simp [resolveItems, nameItems, h1 h]
    · intro h
      rw [EveryBoardIn] at h
      simp [resolveItems, h2 h]
  | .mk t a .nil :: rest =>
    obtain ⟨h1, h2⟩ := resolve_items brd hb rest
    constructor
    · intro h
      rw [EveryBoardIn] at h
      simp [resolveItems, nameItems, h1 h]
    · intro h
      rw [EveryBoardIn] at h
      simp [resolveItems, h2 h]
end

/-- The path of a user's favourites. -/
def Spec.favPath (home user : Bytes) : Bytes := userDir home user ++ ascii "/.fav"

theorem favPath_of {home user : Bytes} (h : user ≠ []) : getUserFavoritePath home user = .ok (favPath home user) := by
  cases user with
  | nil => exact absurd rfl h
  | cons a b => rfl

theorem statOk_of {fs : FS} {cwd : Path} {p d : Bytes} (h : fs.readFile cwd p = .ok d) : fs.statOk cwd p = true := by
  obtain ⟨l, h1, h2⟩ := FS.readFile_ok h
  simp [FS.statOk, h1, h2]

/-- The full claim of C36: the favourites stored in the file are returned with their board names, and stale entries do
no harm. -/
def Spec.FavouritesResolve : Prop :=
  ∀ (db : DB) (c : Codec) (fs : FS) (user data : Bytes) (boards : List BoardHeader) (fav : FavFile),
    user ≠ [] → boards.length < 2 ^ 32 →
    fs.readFile db.cwd (db.home ++ ascii "/.BRD") = .ok (boards.map (fun b => b.marshal c)).flatten →
    (∀ b ∈ boards, b.Storable c) → fs.readFile db.cwd (favPath db.home user) = .ok data →
    unmarshalFavFile c data = .ok fav →
    (db.readFavorites c fs user).Returns ∧
    (EveryBoard (BoardExists boards) fav.folder → db.readFavorites c fs user = .ok (nameFolder boards fav.folder).items)

/-- C36, exact: names are filled in at every depth if all entries refer to boards, and otherwise the reader panics. -/
theorem C36_exact (db : DB) (c : Codec) (fs : FS) (user data : Bytes) (boards : List BoardHeader) (fav : FavFile)
    (hu : user ≠ []) (hn : boards.length < 2 ^ 32)
    (hb : fs.readFile db.cwd (db.home ++ ascii "/.BRD") = .ok (boards.map (fun b => b.marshal c)).flatten)
    (hs : ∀ b ∈ boards, b.Storable c) (hf : fs.readFile db.cwd (favPath db.home user) = .ok data)
    (hd : unmarshalFavFile c data = .ok fav) :
    (EveryBoard (BoardExists boards) fav.folder → db.readFavorites c fs user = .ok (nameFolder boards fav.folder).items) ∧
    (¬ EveryBoard (BoardExists boards) fav.folder → db.readFavorites c fs user = .panic) := by
  have hbr := readBoardRecords_of hb hs
  rw [DB.readBoardRecords] at hbr
  have e : db.readFavorites c fs user = (do
      let folder ← fav.folder.resolve boards
      .ok folder.items) := by
    rw [DB.readFavorites, favPath_of hu, Res.ok_bind, DB.readFavoriteFile, statOk_of hf, hf, Res.ok_bind, (loadFav_ok _ _ _).mpr hd, Res.ok_bind]
    simp only [Bool.not_true, Bool.false_eq_true, if_false]
    cases hp : getBoardPath db.home with
    | ok p => rw [hp, Res.ok_bind] at hbr; rw [Res.ok_bind, hbr, Res.ok_bind]
    | err _ => rw [hp] at hbr; cases hbr
    | panic => rw [hp] at hbr; cases hbr
    | diverge => rw [hp] at hbr; cases hbr
  obtain ⟨h1, h2⟩ := resolve_folder boards hn fav.folder
  constructor
  · intro h; rw [e, h1 h]; rfl
  · intro h; rw [e, h2 h]; rfl

/-! For the tree as the user sees it. -/

mutual
/-- Every board entry of a plain tree satisfies `P`. -/
def Spec.Fav.Every (P : UInt32 → Prop) : Fav → Prop
  | .board _ id _ _ => P id
  | .line _ => True
  | .folder _ _ items => EveryFav P items
def Spec.EveryFav (P : UInt32 → Prop) : List Fav → Prop
  | [] => True
  | x :: xs => x.Every P ∧ EveryFav P xs
end

mutual
/-- What the user sees: names, lines, titled folders. -/
inductive Spec.View where
  | board (name : Bytes)
  | line
  | folder (title : Bytes) (items : List Spec.View)
end

mutual
/-- What a plain tree should look like. -/
def Spec.Fav.view (brd : List BoardHeader) : Fav → View
  | .board _ id _ _ => .board (boardName brd id)
  | .line _ => .line
  | .folder _ title items => .folder title (viewAll brd items)
def Spec.viewAll (brd : List BoardHeader) : List Fav → List View
  | [] => []
  | x :: xs => x.view brd :: viewAll brd xs
end

/-- What a caller sees through `Type`, `BoardID`, `Title` and `Records`, down to the given depth. -/
def Spec.look : Nat → FavItem → Option View
  | 0, _ => none
  | n + 1, it =>
    match it.kind with
    | .board => match it.boardID with
      | .ok name => some (.board name)
      | _ => none
    | .line => some .line
    | .folder => match it.title, it.records with
      | .ok title, .ok its => ((its.mapM (look n)).map (View.folder title))
      | _, _ => none

theorem mapM_cons_some {α β : Type} {f : α → Option β} {a : α} {as : List α} {b : β} {bs : List β} (h : f a = some b)
    (hs : as.mapM f = some bs) : (a :: as).mapM f = some (b :: bs) := by
  simp [List.mapM_cons, h, hs]

theorem toItems_board (lid fid a : UInt8) (b v t : UInt32) (xs : List Fav) :
    toItems lid fid (.board a b v t :: xs) = (Fav.board a b v t).toItem lid fid :: toItems lid fid xs := by
  rw [toItems.eq_def]

theorem toItems_line (lid fid a : UInt8) (xs : List Fav) :
    toItems lid fid (.line a :: xs) = (Fav.line a).toItem lid fid :: toItems (lid + 1) fid xs := by
  rw [toItems.eq_def]

theorem toItems_folder (lid fid a : UInt8) (t : Bytes) (its xs : List Fav) :
    toItems lid fid (.folder a t its :: xs) = (Fav.folder a t its).toItem lid fid :: toItems lid (fid + 1) xs := by
  rw [toItems.eq_def]

mutual
theorem look_fav (brd : List BoardHeader) (x : Fav) : ∃ N, ∀ n, N ≤ n → ∀ lid fid : UInt8, ∀ rest : List FavItem,
    ∃ it, nameItems brd (x.toItem lid fid :: rest) = it :: nameItems brd rest ∧ look n it = some (x.view brd) := by
  match x with
  | .board a b v t =>
    refine ⟨1, fun n hn lid fid rest => ⟨_, by rw [Fav.toItem, nameItems], ?_⟩⟩
    obtain ⟨m, rfl⟩ : ∃ m, n = m + 1 := ⟨n - 1, by omega⟩
    simp [look, FavItem.kind, FavItem.boardID, Fav.view]
  | .line a =>
    refine ⟨1, fun n hn lid fid rest => ⟨_, by rw [Fav.toItem, nameItems], ?_⟩⟩
    obtain ⟨m, rfl⟩ : ∃ m, n = m + 1 := ⟨n - 1, by omega⟩
    simp [look, FavItem.kind, Fav.view]
  | .folder a title items =>
    obtain ⟨N, hN⟩ := look_favs brd items
    refine ⟨N + 1, fun n hn lid fid rest => ⟨_, by rw [Fav.toItem, nameItems], ?_⟩⟩
    obtain ⟨m, rfl⟩ : ∃ m, n = m + 1 := ⟨n - 1, by omega⟩
    have := hN m (by omega) 0 0
    simp [look, FavItem.kind, FavItem.title, FavItem.records, toFolder, nameFolder, FavFolder.items, this, Fav.view]
theorem look_favs (brd : List BoardHeader) (l : List Fav) : ∃ N, ∀ n, N ≤ n → ∀ lid fid : UInt8,
    (nameItems brd (toItems lid fid l)).mapM (look n) = some (viewAll brd l) := by
  match l with
  | [] =>
    exact ⟨0, fun n _ lid fid => by simp [toItems, nameItems, viewAll]⟩
  | x :: xs =>
    obtain ⟨N1, h1⟩ := look_fav brd x
    obtain ⟨N2, h2⟩ := look_favs brd xs
    refine ⟨N1 + N2, fun n hn lid fid => ?_⟩
    rw [viewAll]
    cases x with
    | board a b v t =>
      obtain ⟨it, g1, g2⟩ := h1 n (by omega) lid fid (toItems lid fid xs)
      rw [toItems_board, g1]
      exact mapM_cons_some g2 (h2 n (by omega) _ _)
    | line a =>
      obtain ⟨it, g1, g2⟩ := h1 n (by omega) lid fid (toItems (lid + 1) fid xs)
      rw [toItems_line, g1]
      exact mapM_cons_some g2 (h2 n (by omega) _ _)
    | folder a t its =>
      obtain ⟨it, g1, g2⟩ := h1 n (by omega) lid fid (toItems lid (fid + 1) xs)
      rw [toItems_folder, g1]
      exact mapM_cons_some g2 (h2 n (by omega) _ _)
end

mutual
theorem every_fav (P : UInt32 → Prop) (x : Fav) (lid fid : UInt8) (rest : List FavItem) :
    EveryBoardIn P (x.toItem lid fid :: rest) ↔ x.Every P ∧ EveryBoardIn P rest := by
  match x with
  | .board a b v t => rw [Fav.toItem, EveryBoardIn, Fav.Every]
  | .line a => rw [Fav.toItem, EveryBoardIn, Fav.Every]; simp
  | .folder a title items =>
    rw [Fav.toItem, EveryBoardIn, Fav.Every, toFolder, EveryBoard, every_favs]
theorem every_favs (P : UInt32 → Prop) (l : List Fav) (lid fid : UInt8) :
    EveryBoardIn P (toItems lid fid l) ↔ EveryFav P l := by
  match l with
  | [] => simp [toItems, EveryBoardIn, EveryFav]
  | x :: xs =>
    rw [EveryFav]
    cases x with
    | board a b v t =>
      rw [toItems_board, every_fav, every_favs P xs]
    | line a =>
      rw [toItems_line, every_fav, every_favs P xs]
    | folder a t its =>
      rw [toItems_folder, every_fav, every_favs P xs]
end

/-- C36 (partial) for the tree a user sees: saved favourites of any depth whose entries all refer to boards are read
back as names, lines and titled folders. What is missing: stale entries, see `C36_stale_refuted`. -/
theorem C36_favourites_partial (db : DB) (c : Codec) (fs : FS) (user data : Bytes) (boards : List BoardHeader)
    (version : UInt16) (l : List Fav) (hu : user ≠ []) (hn : boards.length < 2 ^ 32)
    (hb : fs.readFile db.cwd (db.home ++ ascii "/.BRD") = .ok (boards.map (fun b => b.marshal c)).flatten)
    (hs : ∀ b ∈ boards, b.Storable c) (hf : fs.readFile db.cwd (favPath db.home user) = .ok data)
    (hd : FavFile.marshal c ⟨version, toFolder l⟩ = .ok data) (hc : CountsFit l) (ho : AllOk c l)
    (hv : EveryFav (BoardExists boards) l) :
    ∃ items, db.readFavorites c fs user = .ok items ∧ ∃ N, ∀ n, N ≤ n → items.mapM (look n) = some (viewAll boards l) := by
  obtain ⟨bs, h1, h2⟩ := C07_fav_roundtrip_plain c version l hc ho []
  rw [hd] at h1
  have e := Res.ok.inj h1
  subst e
  rw [List.append_nil] at h2
  refine ⟨_, (C36_exact db c fs user data boards _ hu hn hb hs hf h2).1 ?_, ?_⟩
  · show EveryBoard _ (toFolder l)
    rw [toFolder, EveryBoard, every_favs]
    exact hv
  · obtain ⟨N, hN⟩ := look_favs boards l
    refine ⟨N, fun n hn => ?_⟩
    have := hN n hn 0 0
    show ((nameFolder boards (toFolder l)).items).mapM (look n) = _
    rw [toFolder, nameFolder, FavFolder.items]
    exact this

/-- C36: without a favourites file the list is empty. -/
theorem C36_no_file (db : DB) (c : Codec) (fs : FS) (user : Bytes) (hu : user ≠ [])
    (h : fs.statOk db.cwd (favPath db.home user) = false) : db.readFavorites c fs user = .ok [] := by
  rw [DB.readFavorites, favPath_of hu, Res.ok_bind, DB.readFavoriteFile, h]
  rfl

/-! ### Examples -/

/-- Board 2 in a folder, a line, board 1. -/
def favTree : List Fav := [.folder 1 (ascii "news") [.board 1 2 5 0], .line 1, .board 1 1 5 0]

def favBytes (l : List Fav) : Bytes :=
  match FavFile.marshal asciiCodec ⟨3363, toFolder l⟩ with
  | .ok b => b
  | _ => []

theorem favBytes_eq (l : List Fav) (hc : CountsFit l) (ho : AllOk asciiCodec l) :
    FavFile.marshal asciiCodec ⟨3363, toFolder l⟩ = .ok (favBytes l) := by
  obtain ⟨bs, h1, _⟩ := C07_fav_roundtrip_plain asciiCodec 3363 l hc ho []
  simp [favBytes, h1]

theorem favTree_ok : CountsFit favTree ∧ AllOk asciiCodec favTree := by
  refine ⟨by simp [CountsFit, favTree, lines, folders], ?_⟩
  simp [AllOk, Fav.Ok, favTree, CountsFit, lines, folders, FitsCstr, asciiCodec, ascii]

def favFS (l : List Fav) : FS :=
  ⟨[([ascii "bbs"], .dir), ([ascii "bbs", ascii "home"], .dir), ([ascii "bbs", ascii "home", ascii "A"], .dir),
    ([ascii "bbs", ascii "home", ascii "A", ascii "Ab"], .dir),
    ([ascii "bbs", ascii "home", ascii "A", ascii "Ab", ascii ".fav"], .file (favBytes l)),
    ([ascii "bbs", ascii ".BRD"], .file (listBoards.map (fun b => b.marshal asciiCodec)).flatten)]⟩

theorem favFS_boards (l : List Fav) : (favFS l).readFile sampleDB.cwd (sampleDB.home ++ ascii "/.BRD") =
    .ok (listBoards.map (fun b => b.marshal asciiCodec)).flatten := by
  have h : (favFS l).lookup sampleDB.cwd (sampleDB.home ++ ascii "/.BRD") = .ok [ascii "bbs", ascii ".BRD"] := by rfl
  rw [FS.readFile_of h]
  rfl

theorem favFS_fav (l : List Fav) : (favFS l).readFile sampleDB.cwd (favPath sampleDB.home (ascii "Ab")) = .ok (favBytes l) := by
  have h : (favFS l).lookup sampleDB.cwd (favPath sampleDB.home (ascii "Ab")) =
      .ok [ascii "bbs", ascii "home", ascii "A", ascii "Ab", ascii ".fav"] := by rfl
  rw [FS.readFile_of h]
  rfl

/-- Non-vacuity of C36. -/
example : (favFS favTree).readFile sampleDB.cwd (favPath sampleDB.home (ascii "Ab")) = .ok (favBytes favTree) ∧
    FavFile.marshal asciiCodec ⟨3363, toFolder favTree⟩ = .ok (favBytes favTree) ∧ CountsFit favTree ∧
    AllOk asciiCodec favTree ∧ EveryFav (BoardExists listBoards) favTree ∧
    viewAll listBoards favTree =
      [.folder (ascii "news") [.board (ascii "ALLPOST")], .line, .board (ascii "S")] := by
  refine ⟨favFS_fav favTree, favBytes_eq _ favTree_ok.1 favTree_ok.2, favTree_ok.1, favTree_ok.2, ?_, ?_⟩
  · simp [EveryFav, Fav.Every, favTree, BoardExists, listBoards]
  · simp [viewAll, Fav.view, favTree, boardName, listBoards]

/-- A stale entry: board 9 of 3. -/
def staleTree : List Fav := [.board 1 9 5 0]

/-- C36 is false of the code: one stale entry crashes the reader. -/
theorem C36_stale_refuted : ¬ FavouritesResolve := by
  intro h
  have hc : CountsFit staleTree := by simp [CountsFit, staleTree, lines, folders]
  have ho : AllOk asciiCodec staleTree := by simp [AllOk, Fav.Ok, staleTree]
  obtain ⟨bs, h1, h2⟩ := C07_fav_roundtrip_plain asciiCodec 3363 staleTree hc ho []
  rw [favBytes_eq _ hc ho] at h1
  have e := Res.ok.inj h1
  subst e
  rw [List.append_nil] at h2
  have hR := (h sampleDB asciiCodec (favFS staleTree) (ascii "Ab") (favBytes staleTree) listBoards _ (by decide) (by decide)
    (favFS_boards _) list_onDisk.storable (favFS_fav _) h2).1
  have := (C36_exact sampleDB asciiCodec (favFS staleTree) (ascii "Ab") (favBytes staleTree) listBoards _ (by decide)
    (by decide) (favFS_boards _) list_onDisk.storable (favFS_fav _) h2).2 (by
      show ¬ EveryBoard _ (toFolder staleTree)
      rw [toFolder, EveryBoard, every_favs]
      simp [EveryFav, Fav.Every, staleTree, BoardExists, listBoards])
  rw [this] at hR
  exact hR

end Verif
