import Verif.Props.Resent
import Verif.Props.FullClients
import Verif.Props.ErrText
/-!
# C168: what was read is found again
-/

namespace Verif
open Spec

/-- The calls that read a text or a list. -/
def Spec.ReadsIt : Call → Prop
  | .readUsers | .readBoards | .listArticles _ | .listTreasure _ _ | .readArticle _ _ | .readTreasure _ _ _ | .readDraft _ _ => True
  | _ => False

/-- The second answer begins with the first. -/
def Spec.BeginsWith : Answer → Answer → Prop
  | .bytes d, .bytes d' => d <+: d'
  | .users l, .users l' => l <+: l'
  | .boards l, .boards l' => l <+: l'
  | .articles l, .articles l' => l <+: l'
  | _, _ => False

/-- C168, the whole claim: what was read is at the start of what is read after any calls that neither write over a text nor delete. -/
def Spec.StaysRead : Prop := ∀ (db : DB) (c : Codec) (fs : FS) (op : Call) (a : Answer) (ops : List Call),
  ReadsIt op → (op.exec db c fs).2 = .ok a → (∀ o ∈ ops, CallKeeps o) →
  ∃ a', (op.exec db c (Call.execAll db c fs ops).1).2 = .ok a' ∧ BeginsWith a a'

/-- The path of the list a call reads, and the size of its records. -/
def Spec.listRead (db : DB) : Call → Option (Res Bytes × Nat)
  | .readUsers => some (getPasswdsPath db.home, 512)
  | .readBoards => some (getBoardPath db.home, 256)
  | .listArticles b => some (getBoardArticlesDirectoryPath db.home b, 128)
  | .listTreasure b ds => some (getBoardTreasuresDirectoryPath db.home b ds, 128)
  | _ => none

/-- The list a call reads, if it reads one, is there and has whole records only. -/
def Spec.WholeList (db : DB) (fs : FS) (op : Call) : Prop :=
  ∀ p n, listRead db op = some (.ok p, n) → ∃ d, fs.readFile db.cwd p = .ok d ∧ n ∣ d.length

theorem readFile_later {fs fs' : FS} (h : OnlyAdds fs fs') {cwd : Path} {p d : Bytes} (hr : fs.readFile cwd p = .ok d) :
    ∃ e, fs'.readFile cwd p = .ok (d ++ e) := by
  obtain ⟨l, hl, hg⟩ := FS.readFile_ok hr
  obtain ⟨e, he⟩ := h.2 l d hg
  exact ⟨e, by simp only [FS.readFile_of (FS.lookup_mono h.1 hl), he]⟩

theorem openArticleList_file {db : DB} {c : Codec} {fs : FS} {p d : Bytes} (h : fs.readFile db.cwd p = .ok d) :
    db.openArticleList c fs p = .ok ((slots 128 d).map (FileHeader.parse c)) := by
  obtain ⟨l, hl, hg⟩ := FS.readFile_ok h
  simp only [DB.openArticleList, hl, Res.ok_bind, hg]
  exact readFile_slots (by decide) (FileHeader.unmarshal_eq c) d

theorem openBoardList_file {db : DB} {c : Codec} {fs : FS} {p d : Bytes} (h : fs.readFile db.cwd p = .ok d) :
    db.openBoardList c fs p = .ok ((slots 256 d).map (BoardHeader.parse c)) := by
  obtain ⟨l, hl, hg⟩ := FS.readFile_ok h
  simp only [DB.openBoardList, hl, Res.ok_bind, hg]
  exact readFile_slots (by decide) (BoardHeader.unmarshal_eq c) d

theorem openUserList_file {db : DB} {c : Codec} {fs : FS} {p d : Bytes} (h : fs.readFile db.cwd p = .ok d) :
    db.openUserList c fs p = .ok ((slots 512 d).map (Userec.parse c)) := by
  obtain ⟨l, hl, hg⟩ := FS.readFile_ok h
  simp only [DB.openUserList, hl, Res.ok_bind, hg]
  exact readFile_slots (by decide) (Userec.unmarshal_eq c) d

theorem slots_later {α : Type} {size : Nat} (hs : 0 < size) (p : Bytes → α) {d : Bytes} (hd : size ∣ d.length) (e : Bytes) :
    (slots size d).map p <+: (slots size (d ++ e)).map p := by
  rw [slots_append hs hd, List.map_append]
  exact List.prefix_append _ _

theorem readDraft_later {db : DB} {fs fs' : FS} (h : OnlyAdds fs fs') (hdirs : ∀ q, fs'.get q = some .dir → fs.get q = some .dir) {u k d : Bytes}
    (hr : db.getUserDraft fs u k = .ok d) : ∃ d', db.getUserDraft fs' u k = .ok d' ∧ d <+: d' := by
  unfold DB.getUserDraft at hr ⊢
  obtain ⟨p, hp, hr⟩ := Res.bind_eq_ok.mp hr
  rw [hp, Res.ok_bind]
  split at hr
  · rename_i hs
    obtain ⟨e, he⟩ := readFile_later h hr
    have hs' : fs'.statOk db.cwd p = true := by
      obtain ⟨l, hl, hg⟩ := FS.readFile_ok he
      simp only [FS.statOk, hl, hg, Option.isSome]
    rw [hs', if_pos rfl]
    exact ⟨_, he, List.prefix_append _ _⟩
  · rename_i hs
    have := Res.ok.inj hr
    subst this
    split
    · rename_i hs'
      unfold FS.statOk at hs'
      split at hs'
      · rename_i l hl
        simp only [FS.readFile_of hl]
        cases hg : fs'.get l with
        | none => rw [hg] at hs'; cases hs'
        | some n =>
          cases n with
          | dir =>
            have hb := hdirs l hg
            exfalso
            apply hs
            have : fs.lookup db.cwd p = .ok l := FS.lookup_mono hdirs hl
            simp only [FS.statOk, this, hb, Option.isSome]
          | file x => exact ⟨x, rfl, List.nil_prefix⟩
      · cases hs'
    · exact ⟨_, rfl, List.nil_prefix⟩

theorem set_no_dirs {fs : FS} {l : Path} {d : Bytes} (hl : l ≠ []) : ∀ q, (fs.set l (.file d)).get q = some .dir → fs.get q = some .dir := by
  intro q hq
  rw [FS.get_set hl] at hq
  split at hq
  · cases hq
  · exact hq

theorem writes_no_dirs {fs : FS} {r : Res FS} (h : ∀ fs', r = .ok fs' → ∀ q, fs'.get q = some .dir → fs.get q = some .dir) :
    ∀ q, (writes fs r).1.get q = some .dir → fs.get q = some .dir := by
  cases r with
  | ok fs' => exact h fs' rfl
  | err e => exact fun _ h => h
  | panic => exact fun _ h => h
  | diverge => exact fun _ h => h

theorem openCreate_no_dirs {fs fs' : FS} {cwd : Path} {p : Bytes} {g : Bytes → Bytes}
    (h : (fs.openCreate cwd p >>= fun ld => Res.ok (fs.set ld.1 (.file (g ld.2)))) = .ok fs') :
    ∀ q, fs'.get q = some .dir → fs.get q = some .dir := by
  obtain ⟨⟨l, d⟩, ho, h⟩ := Res.bind_eq_ok.mp h
  have := Res.ok.inj h
  subst this
  exact set_no_dirs (FS.ne_root (FS.openCreate_ok ho).2.1)

/-- No call makes a directory. -/
theorem exec_no_dirs (db : DB) (c : Codec) (fs : FS) (op : Call) : ∀ q, (op.exec db c fs).1.get q = some .dir → fs.get q = some .dir := by
  cases op with
  | addBoard r => exact writes_no_dirs fun fs' e => by obtain ⟨p, -, e⟩ := Res.bind_eq_ok.mp e; exact openCreate_no_dirs (g := fun d => d ++ r.marshal c) e
  | addRecord b r => exact writes_no_dirs fun fs' e => by obtain ⟨p, -, e⟩ := Res.bind_eq_ok.mp e; exact openCreate_no_dirs (g := fun d => d ++ r.marshal c) e
  | writeArticle b f x => exact writes_no_dirs fun fs' e => by obtain ⟨p, -, e⟩ := Res.bind_eq_ok.mp e; exact openCreate_no_dirs (g := fun d => writeAt d 0 x) e
  | writeDraft u d x => exact writes_no_dirs fun fs' e => by obtain ⟨p, -, e⟩ := Res.bind_eq_ok.mp e; exact openCreate_no_dirs (g := fun _ => x) e
  | appendArticle b f x =>
    refine writes_no_dirs fun fs' e => ?_
    obtain ⟨p, -, e⟩ := Res.bind_eq_ok.mp e
    unfold FS.append at e
    obtain ⟨l, -, e⟩ := Res.bind_eq_ok.mp e
    split at e
    · cases e
    · cases e
    · rename_i d hg
      have := Res.ok.inj e
      subst this
      exact set_no_dirs (FS.ne_root (by rw [hg]; simp))
  | deleteDraft u d =>
    refine writes_no_dirs fun fs' e => ?_
    obtain ⟨p, -, e⟩ := Res.bind_eq_ok.mp e
    unfold FS.remove at e
    obtain ⟨l, -, e⟩ := Res.bind_eq_ok.mp e
    have key : l ≠ [] → fs' = fs.del l → ∀ q, fs'.get q = some .dir → fs.get q = some .dir := by
      rintro hl rfl q hq
      rw [FS.get_del hl] at hq
      split at hq
      · cases hq
      · exact hq
    split at e
    · cases e
    · rename_i d hg
      exact key (FS.ne_root (by rw [hg]; simp)) (Res.ok.inj e).symm
    · split at e
      · cases e
      · rename_i hl
        split at e
        · cases e
        · exact key hl (Res.ok.inj e).symm
  | createArticle b o d t draw fuel =>
    simp only [Call.exec]
    split
    · rename_i r fs2 e
      simp only [DB.createArticleRecord] at e
      obtain ⟨⟨name, fs3⟩, hc, e⟩ := Res.bind_eq_ok.mp e
      have e' := Res.ok.inj e
      injection e' with e1 e2
      subst e2
      obtain ⟨j, p, -, -, -, -, hx⟩ := createFilename_ok hc
      obtain ⟨l, -, hg, hs⟩ := createExcl_ok hx
      subst hs
      exact set_no_dirs (FS.ne_root (by rw [hg]; simp))
    · exact fun _ h => h
    · exact fun _ h => h
    · exact fun _ h => h
  | _ => exact fun _ h => h

/-- C168: no call, and no history of calls, makes a directory. -/
theorem C168_no_directories (db : DB) (c : Codec) : ∀ (ops : List Call) (fs : FS) (q : Path),
    (Call.execAll db c fs ops).1.get q = some .dir → fs.get q = some .dir
  | [], _, _, h => h
  | op :: ops, fs, q, h => exec_no_dirs db c fs op q (C168_no_directories db c ops (op.exec db c fs).1 q h)

theorem reads_ok {α : Type} {fs : FS} {f : α → Answer} {r : Res α} {a : Answer} (h : (reads fs f r).2 = .ok a) : ∃ x, r = .ok x ∧ a = f x := by
  obtain ⟨x, h1, h2⟩ := Res.bind_eq_ok.mp h
  exact ⟨x, h1, (Res.ok.inj h2).symm⟩

/-- C168 (partial: the list, if it is one, is there and has whole records only). -/
theorem C168_stays_read_partial (db : DB) (c : Codec) (fs : FS) (op : Call) (a : Answer) (ops : List Call) (hop : ReadsIt op)
    (h : (op.exec db c fs).2 = .ok a) (hops : ∀ o ∈ ops, CallKeeps o) (hw : WholeList db fs op) :
    ∃ a', (op.exec db c (Call.execAll db c fs ops).1).2 = .ok a' ∧ BeginsWith a a' := by
  have hadd := C167_only_adds db c ops fs hops
  have hdir := C168_no_directories db c ops fs
  generalize (Call.execAll db c fs ops).1 = fs' at hadd hdir ⊢
  cases op with
  | readUsers =>
    obtain ⟨x, hx, rfl⟩ := reads_ok h
    obtain ⟨p, hp, hx⟩ := Res.bind_eq_ok.mp hx
    obtain ⟨d, hd, hn⟩ := hw p 512 (by simp only [listRead, hp])
    obtain ⟨e, he⟩ := readFile_later hadd hd
    have hx' := Res.ok.inj ((openUserList_file hd).symm.trans hx)
    subst hx'
    refine ⟨.users ((slots 512 (d ++ e)).map (Userec.parse c)), ?_, slots_later (by decide) _ hn e⟩
    simp only [Call.exec, reads, DB.readUserRecords, hp, Res.ok_bind, openUserList_file he]
  | readBoards =>
    obtain ⟨x, hx, rfl⟩ := reads_ok h
    obtain ⟨p, hp, hx⟩ := Res.bind_eq_ok.mp hx
    obtain ⟨d, hd, hn⟩ := hw p 256 (by simp only [listRead, hp])
    obtain ⟨e, he⟩ := readFile_later hadd hd
    have hx' := Res.ok.inj ((openBoardList_file hd).symm.trans hx)
    subst hx'
    refine ⟨.boards ((slots 256 (d ++ e)).map (BoardHeader.parse c)), ?_, slots_later (by decide) _ hn e⟩
    simp only [Call.exec, reads, DB.readBoardRecords, hp, Res.ok_bind, openBoardList_file he]
  | listArticles b =>
    obtain ⟨x, hx, rfl⟩ := reads_ok h
    obtain ⟨p, hp, hx⟩ := Res.bind_eq_ok.mp hx
    obtain ⟨d, hd, hn⟩ := hw p 128 (by simp only [listRead, hp])
    obtain ⟨e, he⟩ := readFile_later hadd hd
    rw [openArticleList_file hd] at hx
    have hx' := Res.ok.inj hx
    subst hx'
    refine ⟨.articles ((slots 128 (d ++ e)).map (FileHeader.parse c)), ?_, slots_later (by decide) _ hn e⟩
    simp only [Call.exec, reads, DB.readArticleRecords, hp, Res.ok_bind, openArticleList_file he]
  | listTreasure b ds =>
    obtain ⟨x, hx, rfl⟩ := reads_ok h
    obtain ⟨p, hp, hx⟩ := Res.bind_eq_ok.mp hx
    obtain ⟨d, hd, hn⟩ := hw p 128 (by simp only [listRead, hp])
    obtain ⟨e, he⟩ := readFile_later hadd hd
    have hx' := Res.ok.inj ((openArticleList_file hd).symm.trans hx)
    subst hx'
    refine ⟨.articles ((slots 128 (d ++ e)).map (FileHeader.parse c)), ?_, slots_later (by decide) _ hn e⟩
    simp only [Call.exec, reads, DB.readTreasureRecords, hp, Res.ok_bind, openArticleList_file he]
  | readArticle b f =>
    obtain ⟨x, hx, rfl⟩ := reads_ok h
    obtain ⟨p, hp, hx⟩ := Res.bind_eq_ok.mp hx
    obtain ⟨e, he⟩ := readFile_later hadd hx
    refine ⟨.bytes (x ++ e), ?_, List.prefix_append _ _⟩
    simp only [Call.exec, reads, DB.readBoardArticleFile, hp, Res.ok_bind, he]
  | readTreasure b ds f =>
    obtain ⟨x, hx, rfl⟩ := reads_ok h
    obtain ⟨p, hp, hx⟩ := Res.bind_eq_ok.mp hx
    obtain ⟨e, he⟩ := readFile_later hadd hx
    refine ⟨.bytes (x ++ e), ?_, List.prefix_append _ _⟩
    simp only [Call.exec, reads, DB.readTreasureFile, hp, Res.ok_bind, he]
  | readDraft u d =>
    obtain ⟨x, hx, rfl⟩ := reads_ok h
    obtain ⟨d', h1, h2⟩ := readDraft_later hadd hdir hx
    refine ⟨.bytes d', ?_, h2⟩
    simp only [Call.exec, reads, h1, Res.ok_bind]
  | _ => exact hop.elim

theorem writes_not_bytes {fs : FS} {r : Res FS} {d : Bytes} : (writes fs r).2 ≠ .ok (.bytes d) := by
  cases r <;> intro h <;> cases h

/-- C168: a text that was read is at the start of what is read later, on every disk. -/
theorem C168_texts (db : DB) (c : Codec) (fs : FS) (op : Call) (d : Bytes) (ops : List Call) (h : (op.exec db c fs).2 = .ok (.bytes d))
    (hops : ∀ o ∈ ops, CallKeeps o) : ∃ e, (op.exec db c (Call.execAll db c fs ops).1).2 = .ok (.bytes (d ++ e)) := by
  have key : ReadsIt op → WholeList db fs op → ∃ e, (op.exec db c (Call.execAll db c fs ops).1).2 = .ok (.bytes (d ++ e)) := by
    intro h1 h2
    obtain ⟨a', h3, h4⟩ := C168_stays_read_partial db c fs op _ ops h1 h hops h2
    cases a' with
    | bytes d' => obtain ⟨e, rfl⟩ := h4; exact ⟨e, h3⟩
    | _ => exact h4.elim
  cases op with
  | readArticle b f => exact key trivial (fun _ _ e => by cases e)
  | readTreasure b ds f => exact key trivial (fun _ _ e => by cases e)
  | readDraft u k => exact key trivial (fun _ _ e => by cases e)
  | readUsers => obtain ⟨x, -, e⟩ := reads_ok h; cases e
  | readBoards => obtain ⟨x, -, e⟩ := reads_ok h; cases e
  | readFavourites u => obtain ⟨x, -, e⟩ := reads_ok h; cases e
  | listArticles b => obtain ⟨x, -, e⟩ := reads_ok h; cases e
  | listTreasure b ds => obtain ⟨x, -, e⟩ := reads_ok h; cases e
  | createArticle b o d t draw fuel =>
    simp only [Call.exec] at h
    split at h
    · cases Res.ok.inj h
    · cases h
    · cases h
    · cases h
  | addBoard r => exact absurd h writes_not_bytes
  | addRecord b r => exact absurd h writes_not_bytes
  | writeArticle b f x => exact absurd h writes_not_bytes
  | appendArticle b f x => exact absurd h writes_not_bytes
  | deleteDraft u d => exact absurd h writes_not_bytes
  | writeDraft u d x => exact absurd h writes_not_bytes

/-- A list of one byte. -/
def Spec.tornList : FS := sampleFS.set [ascii "bbs", ascii "boards", ascii "S", ascii "S", ascii ".DIR"] (.file [77])

/-- C168 is false of the code: a list that ends within a record shows that record, and the next one added changes it. -/
theorem C168_stays_read_refuted : ¬ Spec.StaysRead := by
  intro h
  have e1 : sampleDB.readArticleRecords asciiCodec tornList (ascii "S") = .ok [FileHeader.parse asciiCodec (77 :: zeros 127)] := by decide +kernel
  have e2 : sampleDB.readArticleRecords asciiCodec (Call.execAll sampleDB asciiCodec tornList [.appendArticle (ascii "S") (ascii ".DIR") (ascii "x")]).1
      (ascii "S") = .ok [FileHeader.parse asciiCodec (77 :: 120 :: zeros 126)] := by decide +kernel
  obtain ⟨a', h1, h2⟩ := h sampleDB asciiCodec tornList (.listArticles (ascii "S")) (.articles [FileHeader.parse asciiCodec (77 :: zeros 127)])
    [.appendArticle (ascii "S") (ascii ".DIR") (ascii "x")] trivial (by simp only [Call.exec, reads, e1, Res.ok_bind]) (by
      intro o ho
      rw [List.mem_singleton.mp ho]
      exact trivial)
  simp only [Call.exec, reads, e2, Res.ok_bind] at h1
  rw [← Res.ok.inj h1] at h2
  have h3 : [FileHeader.parse asciiCodec (77 :: zeros 127)] <+: [FileHeader.parse asciiCodec (77 :: 120 :: zeros 126)] := h2
  revert h3
  decide +kernel

/-! ## All but the last -/

theorem slots_most {size : Nat} (hs : 0 < size) (d e : Bytes) : (slots size d).dropLast <+: slots size (d ++ e) := by
  have key : ∀ k, size * (k + 1) ≤ d.length → slot size (d ++ e) k = slot size d k := by
    intro k hk
    unfold slot
    congr 1
    unfold slice
    rw [Nat.mul_add, Nat.mul_one] at hk
    rw [List.take_append_of_le_length hk]
  rw [List.prefix_iff_eq_take]
  apply List.ext_getElem?
  intro i
  simp only [slots, List.getElem?_dropLast, List.length_map, List.length_range, List.length_dropLast, List.getElem?_take, List.getElem?_map]
  have hmono : (d.length + size - 1) / size ≤ ((d ++ e).length + size - 1) / size := Nat.div_le_div_right (by simp; omega)
  by_cases hi : i < (d.length + size - 1) / size - 1
  · rw [if_pos hi, if_pos hi, List.getElem?_range (by omega), List.getElem?_range (by omega)]
    have : size * (i + 1) < d.length := (lt_ceil hs d.length (i + 1)).mp (by omega)
    simp only [Option.map_some]
    rw [key i (by omega)]
  · rw [if_neg hi, if_neg hi]

/-- The second list begins with all but the last of the first. -/
def Spec.MostlyBeginsWith : Answer → Answer → Prop
  | .users l, .users l' => l.dropLast <+: l'
  | .boards l, .boards l' => l.dropLast <+: l'
  | .articles l, .articles l' => l.dropLast <+: l'
  | _, _ => False

theorem slots_most_map {α : Type} {size : Nat} (hs : 0 < size) (p : Bytes → α) (d e : Bytes) :
    ((slots size d).map p).dropLast <+: (slots size (d ++ e)).map p := by
  rw [← List.map_dropLast]
  exact List.IsPrefix.map _ (slots_most hs d e)

/-- C168, for lists on every disk that has them: all records but the last, which may be incomplete, are found again in their places. -/
theorem C168_lists (db : DB) (c : Codec) (fs : FS) (op : Call) (a : Answer) (ops : List Call) (p d : Bytes) (n : Nat)
    (hl : listRead db op = some (.ok p, n)) (hd : fs.readFile db.cwd p = .ok d) (h : (op.exec db c fs).2 = .ok a) (hops : ∀ o ∈ ops, CallKeeps o) :
    ∃ a', (op.exec db c (Call.execAll db c fs ops).1).2 = .ok a' ∧ MostlyBeginsWith a a' := by
  have hadd := C167_only_adds db c ops fs hops
  generalize (Call.execAll db c fs ops).1 = fs' at hadd ⊢
  obtain ⟨e, he⟩ := readFile_later hadd hd
  cases op with
  | readUsers =>
    obtain ⟨hp, -⟩ := Prod.mk.inj (Option.some.inj hl)
    refine ⟨.users ((slots 512 (d ++ e)).map (Userec.parse c)), ?_, ?_⟩
    · simp only [Call.exec, reads, DB.readUserRecords, hp, Res.ok_bind, openUserList_file he]
    · simp only [Call.exec, reads, DB.readUserRecords, hp, Res.ok_bind, openUserList_file hd] at h
      rw [← Res.ok.inj h]
      exact slots_most_map (by decide) _ d e
  | readBoards =>
    obtain ⟨hp, -⟩ := Prod.mk.inj (Option.some.inj hl)
    refine ⟨.boards ((slots 256 (d ++ e)).map (BoardHeader.parse c)), ?_, ?_⟩
    · simp only [Call.exec, reads, DB.readBoardRecords, hp, Res.ok_bind, openBoardList_file he]
    · simp only [Call.exec, reads, DB.readBoardRecords, hp, Res.ok_bind, openBoardList_file hd] at h
      rw [← Res.ok.inj h]
      exact slots_most_map (by decide) _ d e
  | listArticles b =>
    obtain ⟨hp, -⟩ := Prod.mk.inj (Option.some.inj hl)
    refine ⟨.articles ((slots 128 (d ++ e)).map (FileHeader.parse c)), ?_, ?_⟩
    · simp only [Call.exec, reads, DB.readArticleRecords, hp, Res.ok_bind, openArticleList_file he]
    · simp only [Call.exec, reads, DB.readArticleRecords, hp, Res.ok_bind, openArticleList_file hd] at h
      rw [← Res.ok.inj h]
      exact slots_most_map (by decide) _ d e
  | listTreasure b ds =>
    obtain ⟨hp, -⟩ := Prod.mk.inj (Option.some.inj hl)
    refine ⟨.articles ((slots 128 (d ++ e)).map (FileHeader.parse c)), ?_, ?_⟩
    · simp only [Call.exec, reads, DB.readTreasureRecords, hp, Res.ok_bind, openArticleList_file he]
    · simp only [Call.exec, reads, DB.readTreasureRecords, hp, Res.ok_bind, openArticleList_file hd] at h
      rw [← Res.ok.inj h]
      exact slots_most_map (by decide) _ d e
  | _ => cases hl

/-! ## Cases -/

/-- A comment, a board and a record added by others. -/
def Spec.otherCalls : List Call := [.appendArticle (ascii "S") (ascii "f") (ascii "1"), .addBoard sampleBoard, .addRecord (ascii "S") sampleArticle]

theorem otherCalls_keep : ∀ o ∈ otherCalls, CallKeeps o := by
  intro o ho
  simp only [otherCalls, List.mem_cons, List.not_mem_nil, or_false] at ho
  rcases ho with rfl | rfl | rfl <;> exact trivial

/-- Non-vacuity: a text; a draft that is not there; a list with a record that is not whole; an empty list. -/
example : ∃ e, ((Call.readArticle (ascii "S") (ascii ".DIR")).exec sampleDB asciiCodec (Call.execAll sampleDB asciiCodec tornList otherCalls).1).2 =
    .ok (.bytes ([77] ++ e)) := C168_texts _ _ _ _ _ _ rfl otherCalls_keep
example : ∃ e, ((Call.readDraft (ascii "Ab") (ascii "1")).exec sampleDB asciiCodec (Call.execAll sampleDB asciiCodec sampleFS otherCalls).1).2 =
    .ok (.bytes ([] ++ e)) := C168_texts _ _ _ _ _ _ rfl otherCalls_keep
example : ∃ a', ((Call.listArticles (ascii "S")).exec sampleDB asciiCodec (Call.execAll sampleDB asciiCodec tornList otherCalls).1).2 = .ok a' ∧
    MostlyBeginsWith (.articles [FileHeader.parse asciiCodec (77 :: zeros 127)]) a' :=
  C168_lists sampleDB asciiCodec tornList (.listArticles (ascii "S")) _ otherCalls (ascii "/bbs/boards/S/S/.DIR") [77] 128 rfl (by decide +kernel)
    (by
      have e1 : sampleDB.readArticleRecords asciiCodec tornList (ascii "S") = .ok [FileHeader.parse asciiCodec (77 :: zeros 127)] := by decide +kernel
      simp only [Call.exec, reads, e1, Res.ok_bind]) otherCalls_keep
/-- An empty list of articles. -/
def Spec.emptyList : FS := sampleFS.set [ascii "bbs", ascii "boards", ascii "S", ascii "S", ascii ".DIR"] (.file [])
example : ∃ a', ((Call.listArticles (ascii "S")).exec sampleDB asciiCodec (Call.execAll sampleDB asciiCodec emptyList otherCalls).1).2 = .ok a' ∧
    BeginsWith (.articles []) a' :=
  C168_stays_read_partial sampleDB asciiCodec emptyList (.listArticles (ascii "S")) (.articles []) otherCalls trivial rfl otherCalls_keep (by
    intro p n h
    obtain ⟨hp, hn⟩ := Prod.mk.inj (Option.some.inj h)
    have hp' : p = ascii "/bbs/boards/S/S/.DIR" := (Res.ok.inj (hp.symm.trans (show _ = Res.ok (ascii "/bbs/boards/S/S/.DIR") by decide +kernel)))
    subst hp'
    exact ⟨[], by decide +kernel, ⟨0, rfl⟩⟩)
example (q : Path) (h : (Call.execAll sampleDB asciiCodec sampleFS otherCalls).1.get q = some .dir) : sampleFS.get q = some .dir :=
  C168_no_directories _ _ _ _ _ h

/-! ## A list that is not there -/

theorem lookup_fails {fs : FS} {cwd : Path} {p : Bytes} {e : String} (h : fs.lookup cwd p = .err e) :
    e = "no such file or directory" ∨ e = "not a directory" ∨ e = "invalid argument" ∧ 0 ∈ p ∧ p ≠ [] := by
  unfold FS.lookup at h
  split at h
  · injection h with h; exact .inl h.symm
  · rename_i h1
    split at h
    · rename_i h0
      injection h with h
      exact .inr (.inr ⟨h.symm, h0, h1⟩)
    · rcases walk_errs fs _ _ e h with h | h
      · exact .inl h
      · exact .inr (.inl h)

theorem walk_total (fs : FS) : ∀ (cs : List Bytes) (cur : Path), fs.walk cur cs ≠ .panic ∧ fs.walk cur cs ≠ .diverge
  | [], cur => ⟨(by intro h; cases h), (by intro h; cases h)⟩
  | x :: cs, cur => by
    unfold FS.walk
    split
    · exact ⟨(by intro h; cases h), (by intro h; cases h)⟩
    · exact ⟨(by intro h; cases h), (by intro h; cases h)⟩
    · exact walk_total fs cs _

theorem lookup_total (fs : FS) (cwd : Path) (p : Bytes) : fs.lookup cwd p ≠ .panic ∧ fs.lookup cwd p ≠ .diverge := by
  unfold FS.lookup
  split
  · exact ⟨(by intro h; cases h), (by intro h; cases h)⟩
  · split
    · exact ⟨(by intro h; cases h), (by intro h; cases h)⟩
    · exact walk_total fs _ _

/-- C168: a list of articles that was read as empty or otherwise can be read later, unless a file has come to be where its directory would be. -/
theorem C168_later (db : DB) (c : Codec) (fs : FS) (b : Bytes) (rs : List FileHeader) (ops : List Call)
    (h : ((Call.listArticles b).exec db c fs).2 = .ok (.articles rs)) (hops : ∀ o ∈ ops, CallKeeps o) :
    (∃ rs', ((Call.listArticles b).exec db c (Call.execAll db c fs ops).1).2 = .ok (.articles rs') ∧ rs.dropLast <+: rs') ∨
    rs = [] ∧ ((Call.listArticles b).exec db c (Call.execAll db c fs ops).1).2 = .err "not a directory" := by
  have hadd := C167_only_adds db c ops fs hops
  have hdir := C168_no_directories db c ops fs
  obtain ⟨x, hx, e⟩ := reads_ok h
  cases e
  obtain ⟨p, hp, hx⟩ := Res.bind_eq_ok.mp hx
  by_cases hf : ∃ d, fs.readFile db.cwd p = .ok d
  · obtain ⟨d, hd⟩ := hf
    obtain ⟨a', h1, h2⟩ := C168_lists db c fs (.listArticles b) _ ops p d 128 (by simp only [listRead, hp]) hd h hops
    cases a' with
    | articles rs' => exact .inl ⟨rs', h1, h2⟩
    | _ => exact h2.elim
  · generalize (Call.execAll db c fs ops).1 = fs' at hadd hdir ⊢
    have hnil : rs = [] ∧ (0 ∉ p ∨ p = []) ∧ ∀ l, fs.lookup db.cwd p = .ok l → fs.get l = none := by
      unfold DB.openArticleList at hx
      cases hl : fs.lookup db.cwd p with
      | panic => exact absurd hl (lookup_total fs _ _).1
      | diverge => exact absurd hl (lookup_total fs _ _).2
      | err e =>
        rw [hl] at hx
        simp only [Res.err_bind] at hx
        split at hx
        · rename_i he
          refine ⟨(Res.ok.inj hx).symm, ?_, by intro l h; cases h⟩
          by_cases h0 : 0 ∈ p
          · right
            apply Classical.byContradiction
            intro hne
            unfold FS.lookup at hl
            rw [if_neg hne, if_pos h0] at hl
            injection hl with hl
            rw [he] at hl
            revert hl
            decide
          · exact .inl h0
        · cases hx
      | ok l =>
        rw [hl] at hx
        simp only [Res.ok_bind] at hx
        cases hg : fs.get l with
        | none =>
          rw [hg] at hx
          refine ⟨(Res.ok.inj hx).symm, ?_, by rintro l' ⟨⟩; exact hg⟩
          by_cases h0 : 0 ∈ p
          · right
            apply Classical.byContradiction
            intro hne
            unfold FS.lookup at hl
            rw [if_neg hne, if_pos h0] at hl
            cases hl
          · exact .inl h0
        | some n =>
          cases n with
          | dir => rw [hg] at hx; cases hx
          | file d => exact absurd ⟨d, by simp only [FS.readFile_of hl, hg]⟩ hf
    obtain ⟨rfl, h0, hnone⟩ := hnil
    simp only [Call.exec, reads, DB.readArticleRecords, hp, Res.ok_bind]
    cases hl : fs'.lookup db.cwd p with
    | panic => exact absurd hl (lookup_total fs' _ _).1
    | diverge => exact absurd hl (lookup_total fs' _ _).2
    | err e =>
      rcases lookup_fails hl with rfl | rfl | ⟨-, hz, hne⟩
      · refine .inl ⟨[], ?_, List.nil_prefix⟩
        simp only [DB.openArticleList, hl, Res.err_bind, if_true, Res.ok_bind]
      · refine .inr ⟨trivial, ?_⟩
        simp only [DB.openArticleList, hl, Res.err_bind]
        rfl
      · rcases h0 with h0 | h0
        · exact absurd hz h0
        · exact absurd h0 hne
    | ok l =>
      cases hg : fs'.get l with
      | none =>
        refine .inl ⟨[], ?_, List.nil_prefix⟩
        simp only [DB.openArticleList, hl, Res.ok_bind, hg, if_true]
      | some n =>
        cases n with
        | dir =>
          have := hnone l (FS.lookup_mono hdir hl)
          rw [hdir l hg] at this
          cases this
        | file d =>
          refine .inl ⟨(slots 128 d).map (FileHeader.parse c), ?_, List.nil_prefix⟩
          rw [openArticleList_file (d := d) (by simp only [FS.readFile_of hl, hg])]
          rfl

/-- A board directory for names that begin with `M`. -/
def Spec.strangeFS : FS := sampleFS.set [ascii "bbs", ascii "boards", ascii "M"] .dir

/-- C168 is false of the code also for a list that is not there: an article made by another name takes the place of the directory. -/
theorem C168_missing_refuted : ¬ Spec.StaysRead := by
  intro h
  obtain ⟨a', h1, -⟩ := h sampleDB asciiCodec strangeFS (.listArticles (ascii "M.1.A.000")) (.articles [])
    [.createArticle (ascii "../boards/M") [] [] [] (fun _ => (1, 0)) 1] trivial rfl (by
      intro o ho
      rw [List.mem_singleton.mp ho]
      exact trivial)
  have h2 : ((Call.listArticles (ascii "M.1.A.000")).exec sampleDB asciiCodec (Call.execAll sampleDB asciiCodec strangeFS
    [.createArticle (ascii "../boards/M") [] [] [] (fun _ => (1, 0)) 1]).1).2 = .err "not a directory" := rfl
  rw [h2] at h1
  cases h1

example : (∃ rs', ((Call.listArticles (ascii "S")).exec sampleDB asciiCodec (Call.execAll sampleDB asciiCodec sampleFS otherCalls).1).2 = .ok (.articles rs') ∧
      ([] : List FileHeader).dropLast <+: rs') ∨
    ([] : List FileHeader) = [] ∧ ((Call.listArticles (ascii "S")).exec sampleDB asciiCodec (Call.execAll sampleDB asciiCodec sampleFS otherCalls).1).2 = .err "not a directory" :=
  C168_later sampleDB asciiCodec sampleFS (ascii "S") [] otherCalls rfl otherCalls_keep

end Verif
