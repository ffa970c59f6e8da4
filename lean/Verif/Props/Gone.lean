import Verif.Props.Pushed
import Verif.Props.BoardRemoval
/-!
# C159: a board that was removed

`RemoveBoardHeaderFileRecord` (/repo/pttbbs/board.go:228-284) on the list of boards, followed by the calls of /repo/bbs.go:333-380, 519-698.
-/

namespace Verif
open Spec

namespace Spec

/-- `d'` is the list of boards after the undisturbed removal of record `index` from `d`. -/
def RemovedFrom (d : Bytes) (index : Int64) (d' : Bytes) : Prop :=
  ∃ s0 acts s, removeStart (some d) index = .ok s0 ∧ Alone acts ∧ s0.run acts = some s ∧ s.phase = .done ∧ s.file = d'

/-- The disk with another list of boards. -/
def relisted (db : DB) (fs : FS) (d : Bytes) : FS := fs.set (at_ db .boardList) (.file d)

/-- The names of the boards the searches read, of these boards. -/
def searchResults (bs : List BoardHeader) : List Bytes := (bs.map BoardHeader.brdName).filter fun b => b ≠ ascii "ALLPOST"

/-- **C159** in full: a board that is in the list once and is removed has no articles any more, and none either when it is added again. -/
def C159 : Prop := ∀ (db : DB) (c : Codec) (fs fs' : FS) (d d' : Bytes) (n : Nat) (index : Int64) (h : BoardHeader), Placed db fs .boardList →
  holdings db fs .boardList = some d → d.length = 256 * n → 0 ≤ index.toInt → index.toInt < n → RemovedFrom d index d' →
  (boardsIn c d)[index.toInt.toNat]?.map BoardHeader.brdName = some (storedBoard c h).brdName → Placed db fs (.articleIndex (storedBoard c h).brdName) →
  ((boardsIn c d).map BoardHeader.brdName).count (storedBoard c h).brdName = 1 → db.addBoardRecord c (relisted db fs d') h = .ok fs' →
  db.readArticleRecords c fs' (storedBoard c h).brdName = .ok []

end Spec

/-- What a disk that shows `m` answers to the searches. -/
theorem shown_searches {db : DB} {c : Codec} {fs fs' : FS} {m : Holding} {d : Bytes} (hsh : Shows db fs fs' m) (hd : m .boardList = some d)
    (hs : Stocked db c fs m d) (user : Bytes) :
    db.userArticles c fs' user = .ok ((searchedIn c d).flatMap (entriesOf c m user)) ∧
    ∀ l, db.userComments c fs' user = .ok l ↔ (∀ p ∈ shelves c m d, Legible m p) ∧ l = (shelves c m d).flatMap (remarksOf m user) := by
  have h1 := alone_on hsh (reader_userArticles user) (shelved_safe (m := m) hs.shelved hd user)
  rw [alone_userArticles, on_userArticles hd] at h1
  have h2 := alone_on hsh (reader_userComments user) (stocked_safe hs hd user)
  rw [alone_userComments] at h2
  have h2 : db.userComments c fs' user = (Prog.userComments user).on c m := h2
  exact ⟨h1, fun l => by rw [h2, on_userComments hd]⟩

theorem map_erase {α β : Type} (f : α → β) : ∀ (l : List α) (i : Nat), (l.eraseIdx i).map f = (l.map f).eraseIdx i
  | [], _ => rfl
  | _ :: _, 0 => rfl
  | a :: l, i + 1 => congrArg (f a :: ·) (map_erase f l i)

theorem sublist_flatMap {α β : Type} (f : α → List β) {l l' : List α} (h : l.Sublist l') : (l.flatMap f).Sublist (l'.flatMap f) := by
  induction h with
  | slnil => exact .slnil
  | cons a _ ih => rw [List.flatMap_cons]; exact ih.trans (List.sublist_append_right _ _)
  | cons_cons a _ ih => rw [List.flatMap_cons, List.flatMap_cons]; exact (List.Sublist.refl _).append ih

theorem removed_boards {c : Codec} {d d' : Bytes} {n : Nat} {index : Int64} (hl : d.length = 256 * n) (hn : n ≤ 2 ^ 54) (h0 : 0 ≤ index.toInt)
    (h1 : index.toInt < n) (hr : RemovedFrom d index d') : boardsIn c d' = (boardsIn c d).eraseIdx index.toInt.toNat ∧ d'.length = 256 * (n - 1) := by
  obtain ⟨s0, acts, s, e1, e2, e3, e4, e5⟩ := hr
  obtain ⟨s0', g1, _, g2⟩ := C12_remove_exact d n hl hn index h0 h1
  rw [e1] at g1
  have g1 := Res.ok.inj g1
  subst g1
  obtain ⟨k, _⟩ := g2 acts s e2 e3
  obtain ⟨k1, k2⟩ := k e4
  rw [← e5]
  refine ⟨?_, k2⟩
  unfold boardsIn
  rw [k1, map_erase]

/-- **C159, what goes.** Removing one record from the list of boards: the other boards are listed as before, in their order; the searches read the lists
of the remaining boards and find there what they found before. -/
theorem C159_gone (db : DB) (c : Codec) (fs : FS) (d d' : Bytes) (n : Nat) (index : Int64) (hd : holdings db fs .boardList = some d)
    (hl : d.length = 256 * n) (hn : n ≤ 2 ^ 54) (h0 : 0 ≤ index.toInt) (h1 : index.toInt < n) (hr : RemovedFrom d index d')
    (hs : Stocked db c fs (holdings db fs) d) (user : Bytes) :
    db.readBoardRecords c (relisted db fs d') = .ok ((boardsIn c d).eraseIdx index.toInt.toNat) ∧
    db.userArticles c (relisted db fs d') user =
      .ok ((searchResults ((boardsIn c d).eraseIdx index.toInt.toNat)).flatMap (entriesOf c (holdings db fs) user)) ∧
    ∀ l0, db.userComments c fs user = .ok l0 → ∃ l, db.userComments c (relisted db fs d') user = .ok l ∧ l.Sublist l0 ∧
      l = ((searchResults ((boardsIn c d).eraseIdx index.toInt.toNat)).flatMap fun b =>
        ((articlesIn c ((holdings db fs (.articleIndex b)).getD [])).map fun r => (b, r.filename)).flatMap (remarksOf (holdings db fs) user)) := by
  obtain ⟨hb, hl'⟩ := removed_boards (c := c) hl hn h0 h1 hr
  have hsub : (searchedIn c d').Sublist (searchedIn c d) := by
    unfold searchedIn
    rw [hb]
    exact ((List.eraseIdx_sublist _ _).map _).filter _
  have hsh : Shows db fs (relisted db fs d') ((holdings db fs).put .boardList (some d')) := shows_put (shows_start db fs) hs.shelved.list d'
  have hput : ((holdings db fs).put .boardList (some d')) .boardList = some d' := put_self' ..
  have hart : ∀ b f, ((holdings db fs).put .boardList (some d')) (.article b f) = holdings db fs (.article b f) := fun b f => put_other' _ _ (by simp)
  have hidx : ∀ b, ((holdings db fs).put .boardList (some d')) (.articleIndex b) = holdings db fs (.articleIndex b) := fun b => put_other' _ _ (by simp)
  have esh : shelves c ((holdings db fs).put .boardList (some d')) d' = shelves c (holdings db fs) d' := rfl
  have subsh : (shelves c (holdings db fs) d').Sublist (shelves c (holdings db fs) d) := by
    unfold shelves
    exact sublist_flatMap _ hsub
  have hs' : Stocked db c fs ((holdings db fs).put .boardList (some d')) d' :=
    ⟨⟨hs.shelved.list, fun b hb => hs.shelved.boards b (hsub.subset hb)⟩, fun p hp => hs.articles p (subsh.subset (esh ▸ hp))⟩
  obtain ⟨k1, k2⟩ := shown_searches hsh hput hs' user
  obtain ⟨_, k3⟩ := shown_searches (c := c) (shows_start db fs) hd hs user
  refine ⟨?_, ?_, ?_⟩
  · have h := alone_on hsh (reader_boards (c := c)) ⟨by rintro o rfl; exact hs.shelved.list, by simp only [intended]; rw [Holding.need, hput]; trivial⟩
    rw [alone_boards, on_boards, Holding.need, hput] at h
    rw [← hb]
    exact h
  · rw [k1, searchResults, ← hb]; rfl
  · intro l0 h
    obtain ⟨g1, g2⟩ := (k3 l0).mp h
    refine ⟨(shelves c (holdings db fs) d').flatMap (remarksOf (holdings db fs) user), ?_, ?_, ?_⟩
    · exact (k2 _).mpr ⟨fun p hp => g1 p (subsh.subset hp), rfl⟩
    · rw [g2]; exact sublist_flatMap _ subsh
    · unfold shelves searchResults
      rw [← hb, List.flatMap_assoc]; rfl

/-- **C159, what stays.** The articles of the board that was removed stay: its list is read as before, and if a board is added later, every board has
the articles it had; those of the new board are found again. -/
theorem C159_again (db : DB) (c : Codec) (fs fs' : FS) (d d' : Bytes) (n : Nat) (index : Int64) (h : BoardHeader)
    (hl : d.length = 256 * n) (hn : n ≤ 2 ^ 54) (h0 : 0 ≤ index.toInt) (h1 : index.toInt < n) (hr : RemovedFrom d index d')
    (hp : Placed db fs .boardList) (ha : db.addBoardRecord c (relisted db fs d') h = .ok fs') :
    (∀ b, Placed db fs (.articleIndex b) →
      db.readArticleRecords c (relisted db fs d') b = .ok (articlesIn c ((holdings db fs (.articleIndex b)).getD [])) ∧
      db.readArticleRecords c fs' b = .ok (articlesIn c ((holdings db fs (.articleIndex b)).getD []))) ∧
    ∀ user, (∀ b ∈ searchResults ((boardsIn c d).eraseIdx index.toInt.toNat ++ [storedBoard c h]), Placed db fs (.articleIndex b)) →
      db.userArticles c fs' user =
        .ok ((searchResults ((boardsIn c d).eraseIdx index.toInt.toNat ++ [storedBoard c h])).flatMap (entriesOf c (holdings db fs) user)) := by
  obtain ⟨hb, hl'⟩ := removed_boards (c := c) hl hn h0 h1 hr
  have hsh : Shows db fs (relisted db fs d') ((holdings db fs).put .boardList (some d')) := shows_put (shows_start db fs) hp d'
  obtain ⟨_, h2, _⟩ := call_step (c := c) hsh (.addBoard h) (by rintro o rfl; exact hp)
  have h2 : Shows db fs fs' (((holdings db fs).put .boardList (some d')).put .boardList (some (d' ++ h.marshal c))) := by
    have e : (Call.exec db c (relisted db fs d') (.addBoard h)).1 = fs' := by simp [Call.exec, ha, writes]
    rw [e] at h2
    simpa only [intended, put_self', Option.getD_some] using h2
  have hidx : ∀ b, (((holdings db fs).put .boardList (some d')).put .boardList (some (d' ++ h.marshal c))) (.articleIndex b) =
      holdings db fs (.articleIndex b) := fun b => by rw [put_other' _ _ (by simp), put_other' _ _ (by simp)]
  have look : ∀ {s : FS} {m : Holding} {b : Bytes}, Shows db fs s m → Placed db fs (.articleIndex b) → m (.articleIndex b) = holdings db fs (.articleIndex b) →
      db.readArticleRecords c s b = .ok (articlesIn c ((holdings db fs (.articleIndex b)).getD [])) := by
    intro s m b hs hb hm
    obtain ⟨g, _, _⟩ := call_step (c := c) hs (.listArticles b) (by rintro o rfl; exact hb)
    simp only [Call.exec, intended, hm, reads] at g
    cases hq : db.readArticleRecords c s b with
    | ok l =>
      rw [hq] at g
      have g := Answer.articles.inj (Res.ok.inj g)
      rw [g]
    | _ => rw [hq] at g; cases g
  refine ⟨fun b hb => ⟨look hsh hb (put_other' _ _ (by simp)), look h2 hb (hidx b)⟩, fun user hpl => ?_⟩
  have hbs : boardsIn c (d' ++ h.marshal c) = (boardsIn c d).eraseIdx index.toInt.toNat ++ [storedBoard c h] := by
    rw [boardsIn_append c ⟨_, hl'⟩, hb]
  have hse : searchedIn c (d' ++ h.marshal c) = searchResults ((boardsIn c d).eraseIdx index.toInt.toNat ++ [storedBoard c h]) := by
    unfold searchedIn searchResults
    rw [hbs]
  have hd2 : (((holdings db fs).put .boardList (some d')).put .boardList (some (d' ++ h.marshal c))) .boardList = some (d' ++ h.marshal c) := put_self' ..
  have g := alone_on h2 (reader_userArticles user) (shelved_safe (c := c) (m := _) (d := d' ++ h.marshal c) ⟨hp, fun b hb => hpl b (hse ▸ hb)⟩ hd2 user)
  rw [alone_userArticles, on_userArticles hd2, hse] at g
  have g : db.userArticles c fs' user = _ := g
  exact g

/-! ## A board that comes back with its articles -/

theorem shelf_list (text : Bytes) : holdings sampleDB (shelfFS text) .boardList = some (shelfBoard.marshal asciiCodec) ∧
    holdings sampleDB (shelfFS text) (.articleIndex (ascii "S")) = some (shelfRecord.marshal asciiCodec) := by
  obtain ⟨p1, p2, _, p4⟩ := shelf_placed text
  constructor
  · unfold holdings fileAt
    rw [shelfFS, FS.get_set (FS.ne_root p4.notDir), if_neg (by decide +kernel), FS.get_set (FS.ne_root p2.notDir), if_neg (by decide +kernel),
      FS.get_set (FS.ne_root p1.notDir), if_pos rfl]
  · unfold holdings fileAt
    rw [shelfFS, FS.get_set (FS.ne_root p4.notDir), if_neg (by decide +kernel), FS.get_set (FS.ne_root p2.notDir), if_pos rfl]

theorem shelf_removed : (shelfBoard.marshal asciiCodec).length = 256 * 1 ∧ 0 ≤ (0 : Int64).toInt ∧ (0 : Int64).toInt < (1 : Nat) ∧
    ∃ d', RemovedFrom (shelfBoard.marshal asciiCodec) 0 d' := by
  have h1 : (shelfBoard.marshal asciiCodec).length = 256 * 1 := BoardHeader.marshal_length _ _
  refine ⟨h1, by decide, by decide, ?_⟩
  obtain ⟨s0, e1, _, e2⟩ := C12_remove_exact (shelfBoard.marshal asciiCodec) 1 h1 (by decide) 0 (by decide) (by decide)
  obtain ⟨_, ⟨acts, s, g1, g2, g3⟩, _⟩ := e2 [] s0 (fun _ h => by cases h) rfl
  exact ⟨s.file, s0, acts, s, e1, g1, g2, g3, rfl⟩

/-- **C159 is false of the code**: removing a board changes nothing but the list of boards; a board of the same name that is added later has the old articles. -/
theorem C159_refuted : ¬ Spec.C159 := by
  intro H
  obtain ⟨p1, p2, _⟩ := shelf_placed []
  obtain ⟨hl, i0, i1, d', hr⟩ := shelf_removed
  have hname : (storedBoard asciiCodec shelfBoard).brdName = ascii "S" := by decide +kernel
  have hsh : Shows sampleDB (shelfFS []) (relisted sampleDB (shelfFS []) d') ((holdings sampleDB (shelfFS [])).put .boardList (some d')) :=
    shows_put (shows_start _ _) p1 d'
  obtain ⟨g, _, _⟩ := call_step (c := asciiCodec) hsh (.addBoard shelfBoard) (by rintro o rfl; exact p1)
  have : ∃ fs', sampleDB.addBoardRecord asciiCodec (relisted sampleDB (shelfFS []) d') shelfBoard = .ok fs' := by
    simp only [Call.exec, intended] at g
    cases e : sampleDB.addBoardRecord asciiCodec (relisted sampleDB (shelfFS []) d') shelfBoard with
    | ok fs' => exact ⟨fs', rfl⟩
    | _ => rw [e] at g; cases g
  obtain ⟨fs', ha⟩ := this
  have h1 := H sampleDB asciiCodec (shelfFS []) fs' _ d' 1 0 shelfBoard p1 (shelf_list []).1 hl i0 i1 hr (by rw [hname]; decide +kernel)
    (by rw [hname]; exact p2) (by rw [hname]; decide +kernel) ha
  have h2 := ((C159_again sampleDB asciiCodec (shelfFS []) fs' _ d' 1 0 shelfBoard hl (by decide) i0 i1 hr p1 ha).1 (ascii "S") p2).2
  rw [hname, h2, (shelf_list []).2, Option.getD_some] at h1
  have := congrArg List.length (Res.ok.inj h1)
  rw [show (articlesIn asciiCodec (shelfRecord.marshal asciiCodec)).length = 1 by decide +kernel] at this
  cases this

/-! ## Examples -/

/-- The hypotheses of `C159_gone` hold of the disk of `shelfFS`; after the removal nothing is found. -/
example : ∃ d', sampleDB.readBoardRecords asciiCodec (relisted sampleDB (shelfFS []) d') = .ok [] ∧
    sampleDB.userArticles asciiCodec (relisted sampleDB (shelfFS []) d') (ascii "Ab") = .ok [] := by
  obtain ⟨hl, i0, i1, d', hr⟩ := shelf_removed
  obtain ⟨h1, h2, _⟩ := C159_gone sampleDB asciiCodec (shelfFS []) _ d' 1 0 (shelf_list []).1 hl (by decide) i0 i1 hr (shelf_stocked []) (ascii "Ab")
  have e : (boardsIn asciiCodec (shelfBoard.marshal asciiCodec)).eraseIdx (0 : Int64).toInt.toNat = [] := by decide +kernel
  rw [e] at h1 h2
  exact ⟨d', h1, h2⟩

end Verif
