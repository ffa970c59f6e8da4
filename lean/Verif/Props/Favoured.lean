import Verif.Props.Stays
import Verif.Proofs.Progress
import Verif.Props.Fav
import Verif.Props.FavItems
/-!
# C169: favourites that were read
-/

namespace Verif
open Spec

/-! ## More bytes behind the file -/

theorem byteAt_more {d : Bytes} {i : Nat} (e : Bytes) (h : i < d.length) : byteAt (d ++ e) i = byteAt d i := by
  simp [byteAt, List.getD, List.getElem?_append_left h]

theorem unmarshalFavItem_more (c : Codec) (d e : Bytes) (i : Nat) (r : FavItem × Nat) (h : unmarshalFavItem c d i = .ok r) :
    unmarshalFavItem c (d ++ e) i = .ok r := by
  unfold unmarshalFavItem at h ⊢
  split at h
  · cases h
  · rename_i h1
    rw [if_neg (by rw [List.length_append]; omega)]
    simp only [byteAt_more e (show i < d.length by omega), byteAt_more e (show i + 1 < d.length by omega)] at h ⊢
    split at h
    · rename_i h2
      rw [if_pos h2]
      split at h
      · cases h
      · rename_i h3
        rw [if_neg (by rw [List.length_append]; omega), ← h, slice_append (by omega), slice_append (by omega), slice_append (by omega)]
    · rename_i h2
      rw [if_neg h2]
      split at h
      · rename_i h3
        rw [if_pos h3]
        split at h
        · cases h
        · rename_i h4
          rw [if_neg (by rw [List.length_append]; omega), ← h, byteAt_more e (by omega)]
      · rename_i h3
        rw [if_neg h3]
        split at h
        · rename_i h4
          rw [if_pos h4]
          split at h
          · cases h
          · rename_i h5
            rw [if_neg (by rw [List.length_append]; omega), ← h, byteAt_more e (by omega), slice_append (by omega)]
        · cases h

theorem unmarshalFavItems_more (c : Codec) (d e : Bytes) : ∀ (n i : Nat) (r : List FavItem × Nat), unmarshalFavItems c d n i = .ok r →
    unmarshalFavItems c (d ++ e) n i = .ok r
  | 0, _, _, h => h
  | n + 1, i, r, h => by
    unfold unmarshalFavItems at h ⊢
    obtain ⟨⟨it, j⟩, h1, h⟩ := Res.bind_eq_ok.mp h
    obtain ⟨⟨its, k⟩, h2, h⟩ := Res.bind_eq_ok.mp h
    simp only [unmarshalFavItem_more c d e i _ h1, Res.ok_bind, unmarshalFavItems_more c d e n j _ h2]
    exact h

theorem fillSubs_more {rec rec' : Nat → Res (FavFolder × Nat)} (hrec : ∀ i r, rec i = .ok r → rec' i = .ok r) :
    ∀ (its : List FavItem) (i : Nat) (fid lid : UInt8) (r : List FavItem × Nat × UInt8 × UInt8), fillSubs rec its i fid lid = .ok r →
      fillSubs rec' its i fid lid = .ok r
  | [], _, _, _, _, h => h
  | .mk t a (.folder _ title _) :: rest, i, fid, lid, r, h => by
    unfold fillSubs at h ⊢
    obtain ⟨⟨f, j⟩, h1, h⟩ := Res.bind_eq_ok.mp h
    obtain ⟨x, h2, h⟩ := Res.bind_eq_ok.mp h
    simp only [hrec i _ h1, Res.ok_bind, fillSubs_more hrec rest j _ _ x h2]
    exact h
  | .mk t a (.line _) :: rest, i, fid, lid, r, h => by
    unfold fillSubs at h ⊢
    obtain ⟨x, h2, h⟩ := Res.bind_eq_ok.mp h
    simp only [Res.ok_bind, fillSubs_more hrec rest i _ _ x h2]
    exact h
  | .mk t a (.board b v at' nm) :: rest, i, fid, lid, r, h => by
    unfold fillSubs at h ⊢
    obtain ⟨x, h2, h⟩ := Res.bind_eq_ok.mp h
    simp only [Res.ok_bind, fillSubs_more hrec rest i _ _ x h2]
    exact h
  | .mk t a .nil :: rest, i, fid, lid, r, h => by
    unfold fillSubs at h ⊢
    obtain ⟨x, h2, h⟩ := Res.bind_eq_ok.mp h
    simp only [Res.ok_bind, fillSubs_more hrec rest i _ _ x h2]
    exact h

theorem unmarshalFavFolder_more (c : Codec) (d e : Bytes) : ∀ (fuel i : Nat) (r : FavFolder × Nat), unmarshalFavFolder c d fuel i = .ok r →
    unmarshalFavFolder c (d ++ e) fuel i = .ok r
  | 0, _, _, h => by cases h
  | fuel + 1, i, r, h => by
    unfold unmarshalFavFolder at h ⊢
    split at h
    · cases h
    · rename_i h1
      rw [if_neg (by rw [List.length_append]; omega), slice_append (by omega), byteAt_more e (by omega), byteAt_more e (by omega)]
      obtain ⟨⟨its, j⟩, h2, h⟩ := Res.bind_eq_ok.mp h
      obtain ⟨x, h3, h⟩ := Res.bind_eq_ok.mp h
      simp only [unmarshalFavItems_more c d e _ _ _ h2, Res.ok_bind,
        fillSubs_more (fun i r hr => unmarshalFavFolder_more c d e fuel i r hr) its j 0 0 x h3]
      exact h

/-- C169: a file of favourites that is read is read the same with anything behind it. -/
theorem C169_trailing (c : Codec) (d e : Bytes) (f : FavFile) (h : loadFav c d = .ok f) : loadFav c (d ++ e) = .ok f := by
  rw [loadFav_ok] at h ⊢
  unfold unmarshalFavFile at h ⊢
  rw [unmarshalFavFileF_eq] at h ⊢
  split at h
  · cases h
  · rename_i h1
    rw [if_neg (by rw [List.length_append]; omega)]
    obtain ⟨⟨g, k⟩, h2, h⟩ := Res.bind_eq_ok.mp h
    have h3 := unmarshalFavFolder_more c d e _ _ _ h2
    rw [unmarshalFavFolder_mono c (d ++ e) (d.length + 1) ((d ++ e).length + 1) (by rw [List.length_append]; omega) 2 (by rw [h3]; intro h; cases h), h3,
      Res.ok_bind, slice_append (by omega)]
    exact h

/-! ## More boards behind the list -/

mutual
theorem resolve_more {brd brd' : List BoardHeader} (hb : brd <+: brd') : ∀ (f f' : FavFolder), f.resolve brd = .ok f' → f.resolve brd' = .ok f'
  | .mk na dt nb nl nf li fi items, f', h => by
    unfold FavFolder.resolve at h ⊢
    obtain ⟨x, h1, h⟩ := Res.bind_eq_ok.mp h
    rw [resolveItems_more hb items x h1]
    exact h
theorem resolveItems_more {brd brd' : List BoardHeader} (hb : brd <+: brd') : ∀ (items its : List FavItem), resolveItems brd items = .ok its →
    resolveItems brd' items = .ok its
  | [], _, h => by unfold resolveItems at h ⊢; exact h
  | .mk t a (.board b v at' _) :: rest, its, h => by
    unfold resolveItems at h ⊢
    split at h
    · cases h
    · rename_i hd hg
      obtain ⟨z, rfl⟩ := hb
      have : (brd ++ z)[(b - 1).toNat]? = some hd := by
        rw [List.getElem?_append_left (List.getElem?_eq_some_iff.mp hg).1]
        exact hg
      rw [this]
      obtain ⟨x, h1, h⟩ := Res.bind_eq_ok.mp h
      simp only [resolveItems_more (List.prefix_append brd z) rest x h1, Res.ok_bind]
      exact h
  | .mk t a (.folder id title (some f)) :: rest, its, h => by
    unfold resolveItems at h ⊢
    obtain ⟨x, h1, h⟩ := Res.bind_eq_ok.mp h
    obtain ⟨y, h2, h⟩ := Res.bind_eq_ok.mp h
    simp only [resolve_more hb f x h1, Res.ok_bind, resolveItems_more hb rest y h2]
    exact h
  | .mk _ _ (.folder _ _ none) :: _, _, h => by unfold resolveItems at h; cases h
  | .mk t a (.line id) :: rest, its, h => by
    unfold resolveItems at h ⊢
    obtain ⟨x, h1, h⟩ := Res.bind_eq_ok.mp h
    simp only [resolveItems_more hb rest x h1, Res.ok_bind]
    exact h
  | .mk t a .nil :: rest, its, h => by
    unfold resolveItems at h ⊢
    obtain ⟨x, h1, h⟩ := Res.bind_eq_ok.mp h
    simp only [resolveItems_more hb rest x h1, Res.ok_bind]
    exact h
end

/-! ## A file of favourites that is not there -/

/-- What is new on a disk does not have the name of a file of favourites. -/
def NoNewFav (fs fs' : FS) : Prop := ∀ l : Path, l.getLast? = some (ascii ".fav") → (fs'.get l).isSome → (fs.get l).isSome

theorem noNewFav_set {fs : FS} {l : Path} {d : Bytes} (hl : l ≠ []) (h : l.getLast? = some (ascii ".fav") → (fs.get l).isSome) :
    NoNewFav fs (fs.set l (.file d)) := by
  intro q hq hs
  rw [FS.get_set hl] at hs
  split at hs
  · rename_i e
    subst e
    exact h hq
  · exact hs

theorem noNewFav_writes {fs : FS} {r : Res FS} (h : ∀ fs', r = .ok fs' → NoNewFav fs fs') : NoNewFav fs (writes fs r).1 := by
  cases r with
  | ok fs' => exact h fs' rfl
  | err e => exact fun _ _ h => h
  | panic => exact fun _ _ h => h
  | diverge => exact fun _ _ h => h

theorem noNewFav_openCreate {fs fs' : FS} {cwd : Path} {p x name : Bytes} {g : Bytes → Bytes} (hp : p = x ++ slash :: name) (h1 : slash ∉ name)
    (h2 : name ≠ []) (h3 : name ≠ [dot]) (h4 : name ≠ [dot, dot]) (h5 : name ≠ ascii ".fav")
    (h : (fs.openCreate cwd p >>= fun ld => Res.ok (fs.set ld.1 (.file (g ld.2)))) = .ok fs') : NoNewFav fs fs' := by
  obtain ⟨⟨l, d⟩, ho, h⟩ := Res.bind_eq_ok.mp h
  have := Res.ok.inj h
  subst this
  obtain ⟨hl, hn, -⟩ := FS.openCreate_ok ho
  refine noNewFav_set (FS.ne_root hn) fun hq => ?_
  have hl := FS.lookup_eq hl
  subst hl hp
  rw [resolve_last cwd x name h1 h2 h3 h4] at hq
  exact absurd (Option.some.inj hq) h5

theorem articleName_ne_fav (t : Int) (r : Fin 4096) : DB.articleName t r ≠ ascii ".fav" := by
  intro h
  have h1 : (DB.articleName t r).head? = some 77 := by
    unfold DB.articleName
    simp only [List.append_assoc, show ascii "M." = [77, 46] from by decide, List.cons_append, List.head?_cons]
  rw [h] at h1
  revert h1
  decide

theorem exec_no_fav (db : DB) (c : Codec) (fs : FS) (op : Call) (h : CallKeeps op) : NoNewFav fs (op.exec db c fs).1 := by
  cases op with
  | addBoard r =>
    refine noNewFav_writes fun fs' e => ?_
    obtain ⟨p, hp, e⟩ := Res.bind_eq_ok.mp e
    exact noNewFav_openCreate (g := fun d => d ++ r.marshal c) (x := db.home) (name := ascii ".BRD") (Res.ok.inj hp).symm
      (by decide) (by decide) (by decide) (by decide) (by decide) e
  | addRecord b r =>
    refine noNewFav_writes fun fs' e => ?_
    obtain ⟨p, hp, e⟩ := Res.bind_eq_ok.mp e
    obtain ⟨k, -, hp⟩ := Res.bind_eq_ok.mp hp
    exact noNewFav_openCreate (g := fun d => d ++ r.marshal c) (x := db.home ++ ascii "/boards/" ++ fmtC k ++ ascii "/" ++ b) (name := ascii ".DIR")
      (Res.ok.inj hp).symm (by decide) (by decide) (by decide) (by decide) (by decide) e
  | appendArticle b f x =>
    refine noNewFav_writes fun fs' e => ?_
    obtain ⟨p, -, e⟩ := Res.bind_eq_ok.mp e
    unfold FS.append at e
    obtain ⟨l, -, e⟩ := Res.bind_eq_ok.mp e
    split at e
    · cases e
    · cases e
    · rename_i d hg
      have := Res.ok.inj e
      subst this
      exact noNewFav_set (FS.ne_root (by rw [hg]; simp)) fun _ => by rw [hg]; rfl
  | createArticle b o d t draw fuel =>
    simp only [Call.exec]
    split
    · rename_i r fs2 e
      simp only [DB.createArticleRecord] at e
      obtain ⟨⟨name, fs3⟩, hc, e⟩ := Res.bind_eq_ok.mp e
      have e' := Res.ok.inj e
      injection e' with e1 e2
      subst e2
      obtain ⟨j, p, -, -, hn, hp, hx⟩ := createFilename_ok hc
      obtain ⟨l, hl, hg, hs⟩ := createExcl_ok hx
      subst hs
      refine noNewFav_set (FS.ne_root (by rw [hg]; simp)) fun hq => ?_
      obtain ⟨k, -, hp⟩ := Res.bind_eq_ok.mp hp
      have hp := Res.ok.inj hp
      have hl := FS.lookup_eq hl
      have hcomp := (articleName_component (draw j).1 (draw j).2).1
      rw [← hn] at hcomp
      have hp2 : p = (db.home ++ ascii "/boards/" ++ fmtC k ++ ascii "/" ++ b) ++ slash :: name := by
        rw [← hp, show ascii "/" = [slash] from by decide]
        simp only [List.append_assoc, List.cons_append, List.nil_append]
      rw [hl, hp2, resolve_last _ _ name hcomp.noSlash hcomp.nonempty hcomp.notDot hcomp.notDotDot] at hq
      exact absurd ((Option.some.inj hq).symm.trans hn).symm (articleName_ne_fav _ _)
    · exact fun _ _ h => h
    · exact fun _ _ h => h
    · exact fun _ _ h => h
  | writeArticle b f x => exact h.elim
  | writeDraft u d x => exact h.elim
  | deleteDraft u d => exact h.elim
  | _ => exact fun _ _ h => h

theorem execAll_no_fav (db : DB) (c : Codec) : ∀ (ops : List Call) (fs : FS), (∀ op ∈ ops, CallKeeps op) → NoNewFav fs (Call.execAll db c fs ops).1
  | [], _, _ => fun _ _ h => h
  | op :: ops, fs, h => fun l hl hs => exec_no_fav db c fs op (h op List.mem_cons_self) l hl
      (execAll_no_fav db c ops (op.exec db c fs).1 (fun o ho => h o (List.mem_cons_of_mem _ ho)) l hl hs)

/-- C169: a file of favourites that is not there is made by no call that only adds. -/
theorem C169_none_made (db : DB) (c : Codec) (fs : FS) (u p : Bytes) (ops : List Call) (hp : getUserFavoritePath db.home u = .ok p)
    (hops : ∀ o ∈ ops, CallKeeps o) : (Call.execAll db c fs ops).1.statOk db.cwd p = fs.statOk db.cwd p := by
  have hadd := C167_only_adds db c ops fs hops
  have hdirs := C168_no_directories db c ops fs
  have hnew := execAll_no_fav db c ops fs hops
  generalize (Call.execAll db c fs ops).1 = fs' at hadd hdirs hnew
  obtain ⟨k, -, hp⟩ := Res.bind_eq_ok.mp hp
  have hp : p = (db.home ++ ascii "/home/" ++ fmtC k ++ ascii "/" ++ u) ++ slash :: ascii ".fav" := (Res.ok.inj hp).symm
  cases hb : fs.statOk db.cwd p with
  | true =>
    unfold FS.statOk at hb ⊢
    split at hb
    · rename_i l hl
      rw [FS.lookup_mono hadd.1 hl]
      cases hg : fs.get l with
      | none => rw [hg] at hb; cases hb
      | some n =>
        cases n with
        | dir => simp only [hadd.1 l hg, Option.isSome]
        | file d =>
          obtain ⟨e, he⟩ := hadd.2 l d hg
          simp only [he, Option.isSome]
    · cases hb
  | false =>
    apply Bool.eq_false_iff.mpr
    intro h
    have : fs.statOk db.cwd p = true := by
      unfold FS.statOk at h ⊢
      split at h
      · rename_i l hl
        rw [FS.lookup_mono hdirs hl]
        refine hnew l ?_ h
        rw [FS.lookup_eq hl, hp]
        exact resolve_last _ _ _ (by decide) (by decide) (by decide) (by decide)
      · cases h
    rw [hb] at this
    cases this

/-! ## Favourites -/

/-- C169: favourites that were read are read the same after any calls that write over no text and delete nothing. -/
def Spec.FavouritesStay : Prop := ∀ (db : DB) (c : Codec) (fs : FS) (u : Bytes) (a : Answer) (ops : List Call),
  ((Call.readFavourites u).exec db c fs).2 = .ok a → (∀ o ∈ ops, CallKeeps o) →
  ((Call.readFavourites u).exec db c (Call.execAll db c fs ops).1).2 = .ok a

/-- C169 (partial: the list of boards, if it is there, has whole records only). -/
theorem C169_favourites_stay_partial (db : DB) (c : Codec) (fs : FS) (u : Bytes) (a : Answer) (ops : List Call)
    (h : ((Call.readFavourites u).exec db c fs).2 = .ok a) (hops : ∀ o ∈ ops, CallKeeps o)
    (hw : ∀ d, fs.readFile db.cwd (db.home ++ ascii "/.BRD") = .ok d → 256 ∣ d.length) :
    ((Call.readFavourites u).exec db c (Call.execAll db c fs ops).1).2 = .ok a := by
  have hadd := C167_only_adds db c ops fs hops
  simp only [Call.exec] at h ⊢
  obtain ⟨items, h1, rfl⟩ := reads_ok h
  suffices hs : db.readFavorites c (Call.execAll db c fs ops).1 u = .ok items by rw [hs]; rfl
  unfold DB.readFavorites at h1 ⊢
  obtain ⟨p, hp, h1⟩ := Res.bind_eq_ok.mp h1
  have hstat := C169_none_made db c fs u p ops hp hops
  rw [hp, Res.ok_bind]
  unfold DB.readFavoriteFile at h1 ⊢
  rw [hstat]
  generalize (Call.execAll db c fs ops).1 = fs' at hadd
  split at h1
  · rename_i hb
    rw [if_pos hb]
    exact h1
  · rename_i hb
    rw [if_neg hb]
    obtain ⟨data, h2, h1⟩ := Res.bind_eq_ok.mp h1
    obtain ⟨f, h3, h1⟩ := Res.bind_eq_ok.mp h1
    obtain ⟨bp, h4, h1⟩ := Res.bind_eq_ok.mp h1
    obtain ⟨br, h5, h1⟩ := Res.bind_eq_ok.mp h1
    obtain ⟨g, h6, h1⟩ := Res.bind_eq_ok.mp h1
    obtain ⟨e, he⟩ := readFile_later hadd h2
    have hbp : bp = db.home ++ ascii "/.BRD" := (Res.ok.inj h4).symm
    have hread : ∃ d, fs.readFile db.cwd bp = .ok d := by
      unfold DB.openBoardList at h5
      obtain ⟨l, hl, h5⟩ := Res.bind_eq_ok.mp h5
      rw [FS.readFile_of hl]
      split at h5
      · cases h5
      · cases h5
      · rename_i d hg
        exact ⟨d, by rw [hg]⟩
    obtain ⟨d, hd⟩ := hread
    obtain ⟨e', he'⟩ := readFile_later hadd hd
    rw [openBoardList_file hd] at h5
    have h5 := Res.ok.inj h5
    have hpre : br <+: (slots 256 (d ++ e')).map (BoardHeader.parse c) := by
      rw [← h5]
      exact slots_later (by decide) _ (hw d (by rw [← hbp]; exact hd)) e'
    rw [he, Res.ok_bind, C169_trailing c data e f h3, Res.ok_bind, h4, Res.ok_bind, openBoardList_file he', Res.ok_bind, resolve_more hpre _ _ h6]
    exact h1

/-- One favourite, the first board. -/
def Spec.oneFav : List Fav := [.board 1 1 5 0]

/-- Its board list has one byte. -/
def Spec.tornBoards : FS := (favFS oneFav).set [ascii "bbs", ascii ".BRD"] (.file [77])

/-- The name shown for the first favourite. -/
def Spec.firstShown : Res Answer → Option Bytes
  | .ok (.favourites (.mk _ _ (.board _ _ _ name) :: _)) => some name
  | _ => none

theorem firstShown_of {fs : FS} {d : Bytes} {hd : BoardHeader} (hf : fs.readFile sampleDB.cwd (favPath sampleDB.home (ascii "Ab")) = .ok (favBytes oneFav))
    (hb : fs.readFile sampleDB.cwd (sampleDB.home ++ ascii "/.BRD") = .ok d) (h0 : ((slots 256 d).map (BoardHeader.parse asciiCodec))[0]? = some hd) :
    firstShown ((Call.readFavourites (ascii "Ab")).exec sampleDB asciiCodec fs).2 = some hd.brdName := by
  have ho : CountsFit oneFav ∧ AllOk asciiCodec oneFav := by simp [CountsFit, oneFav, lines, folders, AllOk, Fav.Ok]
  obtain ⟨bs, h1, h2⟩ := C07_fav_roundtrip_plain asciiCodec 3363 oneFav ho.1 ho.2 []
  rw [favBytes_eq _ ho.1 ho.2] at h1
  rw [← Res.ok.inj h1, List.append_nil] at h2
  have e : sampleDB.readFavorites asciiCodec fs (ascii "Ab") = .ok [.mk 1 1 (.board 1 (timeOfU32 5) 0 hd.brdName)] := by
    rw [DB.readFavorites, favPath_of (by decide), Res.ok_bind, DB.readFavoriteFile, statOk_of hf, hf, Res.ok_bind, (loadFav_ok _ _ _).mpr h2, Res.ok_bind]
    simp only [Bool.not_true, Bool.false_eq_true, if_false, getBoardPath, Res.ok_bind, openBoardList_file hb, toFolder, toItems, oneFav, Fav.toItem,
      FavFolder.resolve, resolveItems, show ((1 : UInt32) - 1).toNat = 0 from by decide, h0, FavFolder.items]
  simp only [Call.exec, e, reads, Res.ok_bind, firstShown]

/-- C169 is false of the code: a list of boards that ends within a record shows that board, and the next one added changes its name. -/
theorem C169_favourites_stay_refuted : ¬ Spec.FavouritesStay := by
  intro h
  have e1 := firstShown_of (fs := tornBoards) (d := [77]) (by
      rw [FS.readFile_of (show tornBoards.lookup sampleDB.cwd (favPath sampleDB.home (ascii "Ab")) =
        .ok [ascii "bbs", ascii "home", ascii "A", ascii "Ab", ascii ".fav"] from rfl)]
      rfl) (by rfl) (hd := BoardHeader.parse asciiCodec (77 :: zeros 255)) (by decide +kernel)
  have e2 := firstShown_of (fs := (Call.execAll sampleDB asciiCodec tornBoards [.addBoard { sampleBoard with brdName := ascii "S" }]).1)
    (d := 77 :: ({ sampleBoard with brdName := ascii "S" } : BoardHeader).marshal asciiCodec) (by
      rw [FS.readFile_of (show (Call.execAll sampleDB asciiCodec tornBoards [.addBoard { sampleBoard with brdName := ascii "S" }]).1.lookup
        sampleDB.cwd (favPath sampleDB.home (ascii "Ab")) = .ok [ascii "bbs", ascii "home", ascii "A", ascii "Ab", ascii ".fav"] from rfl)]
      rfl) (by decide +kernel) (hd := BoardHeader.parse asciiCodec ((77 :: ({ sampleBoard with brdName := ascii "S" } : BoardHeader).marshal asciiCodec).take 256))
    (by decide +kernel)
  cases hr : ((Call.readFavourites (ascii "Ab")).exec sampleDB asciiCodec tornBoards).2 with
  | ok a =>
    have h1 := h sampleDB asciiCodec tornBoards (ascii "Ab") a [.addBoard { sampleBoard with brdName := ascii "S" }] hr (by
      intro o ho
      rw [List.mem_singleton.mp ho]
      exact trivial)
    rw [h1] at e2
    rw [hr, e2] at e1
    revert e1
    decide
  | err e => rw [hr] at e1; cases e1
  | panic => rw [hr] at e1; cases e1
  | diverge => rw [hr] at e1; cases e1

/-- Non-vacuity: three favourites on a whole list of boards; a board comes behind it and the favourites stay. -/
example : ∃ items, ((Call.readFavourites (ascii "Ab")).exec sampleDB asciiCodec (favFS favTree)).2 = .ok (.favourites items) ∧
    ((Call.readFavourites (ascii "Ab")).exec sampleDB asciiCodec (Call.execAll sampleDB asciiCodec (favFS favTree) [.addBoard sampleBoard]).1).2 =
      .ok (.favourites items) := by
  obtain ⟨items, h, _⟩ := C36_favourites_partial sampleDB asciiCodec (favFS favTree) (ascii "Ab") (favBytes favTree) listBoards 3363 favTree
    (by decide) (by decide) (favFS_boards _) list_onDisk.storable (favFS_fav _) (favBytes_eq _ favTree_ok.1 favTree_ok.2)
    favTree_ok.1 favTree_ok.2 (by simp [Spec.EveryFav, Spec.Fav.Every, favTree, Spec.BoardExists, listBoards])
  have h1 : ((Call.readFavourites (ascii "Ab")).exec sampleDB asciiCodec (favFS favTree)).2 = .ok (.favourites items) := by
    simp only [Call.exec, h, reads, Res.ok_bind]
  refine ⟨items, h1, C169_favourites_stay_partial sampleDB asciiCodec (favFS favTree) (ascii "Ab") _ _ h1 ?_ ?_⟩
  · intro o ho
    rw [List.mem_singleton.mp ho]
    exact trivial
  · intro d hd
    rw [favFS_boards] at hd
    rw [← Res.ok.inj hd]
    decide +kernel
/-- The board really is behind the list. -/
example : sampleDB.readBoardRecords asciiCodec (Call.execAll sampleDB asciiCodec (favFS favTree) [.addBoard sampleBoard]).1 ≠
    sampleDB.readBoardRecords asciiCodec (favFS favTree) := by decide +kernel

/-- A user without favourites has none after a board and a record were added. -/
example : (Call.execAll sampleDB asciiCodec sampleFS [.addBoard sampleBoard, .addRecord (ascii "S") FileHeader.zero]).1.statOk sampleDB.cwd
      (ascii "/bbs/home/A/Ab/.fav") = false :=
  (C169_none_made sampleDB asciiCodec sampleFS (ascii "Ab") _ _ (by decide) (by
    intro op hop
    simp only [List.mem_cons, List.not_mem_nil, or_false] at hop
    rcases hop with rfl | rfl <;> exact trivial)).trans (by decide)
/-- Writing an article can make one: the name of an article may be a path. -/
example : (Call.execAll sampleDB asciiCodec sampleFS [.writeArticle (ascii "S") (ascii ".fav") (ascii "x")]).1.statOk sampleDB.cwd
    (ascii "/bbs/boards/S/S/.fav") = true := by decide +kernel

/-- A file of favourites with more behind it. -/
example : loadFav asciiCodec (favBytes favTree ++ ascii "more") = loadFav asciiCodec (favBytes favTree) := by
  obtain ⟨bs, h1, h2⟩ := C07_fav_roundtrip_plain asciiCodec 3363 favTree favTree_ok.1 favTree_ok.2 []
  rw [favBytes_eq _ favTree_ok.1 favTree_ok.2] at h1
  rw [← Res.ok.inj h1, List.append_nil] at h2
  have h3 := (loadFav_ok _ _ _).mpr h2
  rw [h3]
  exact C169_trailing asciiCodec _ _ _ h3

end Verif
