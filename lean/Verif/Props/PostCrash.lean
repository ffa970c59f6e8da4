import Verif.Model.PostCrash
import Verif.Props.Recommend
import Verif.Props.ToolWork
/-!
# C102: the tool dies while it posts an article
-/

namespace Verif
open Spec

/-- The bytes of the record that are in the list. -/
def PostPoint.inList (record : Bytes) : PostPoint → Bytes
  | .created => []
  | .recorded k => record.take k
  | .written _ => record

/-- The bytes of the text that are in the file. -/
def PostPoint.inFile (text : Bytes) : PostPoint → Bytes
  | .written k => text.take k
  | _ => []

/-- What the bytes of one record, possibly incomplete, add to the list. -/
def Spec.shownAs (c : Codec) (part : Bytes) : List FileHeader := if part = [] then [] else [FileHeader.parse c (padTo 128 part)]

theorem read_partial (c : Codec) (d part : Bytes) (n : Nat) (hd : d.length = 128 * n) (hp : part.length ≤ 128) :
    ∃ old, openFileHeaderFile c (some d) = .ok old ∧ openFileHeaderFile c (some (d ++ part)) = .ok (old ++ shownAs c part) := by
  obtain ⟨rs, hr, rfl, hl⟩ := aligned_flatten (size := 128) n _ hd
  refine ⟨rs.map (FileHeader.parse c), openFileHeader_flatten c hr, ?_⟩
  unfold shownAs
  split
  · next h => rw [h, List.append_nil, List.append_nil, openFileHeader_flatten c hr]
  · next h =>
    have h0 : 0 < part.length := List.length_pos_iff.mpr h
    unfold openFileHeaderFile
    rw [readFile_slots (by omega) (FileHeader.unmarshal_eq c)]
    have e : slots 128 (rs.flatten ++ part) = rs ++ [padTo 128 part] := by
      apply List.ext_getElem
      · simp only [slots, List.length_map, List.length_range, List.length_append, hr.flatten_length, List.length_singleton, hl]
        omega
      · intro i h1 h2
        simp only [slots, List.getElem_map, List.getElem_range]
        by_cases hi : i < rs.length
        · rw [slot_flatten hr part i hi, List.getElem_append_left hi]
        · have hi' : i = rs.length := by
            have : i < rs.length + 1 := by simpa using h2
            omega
          subst hi'
          rw [List.getElem_append_right (Nat.le_refl _)]
          simp only [Nat.sub_self, List.getElem_cons_zero]
          unfold slot slice
          rw [← hr.flatten_length, List.take_length_add_append, List.drop_left' rfl, List.take_of_length_le hp]
    rw [e, List.map_append]
    rfl

/-- **C102, the exact law.** Wherever the process dies: the name was free; the file holds what was written of the text; the list has its
old entries and what the bytes written of the record show; nothing else has changed. -/
theorem C102_crash_exact (db : DB) (c : Codec) (fs fs' : FS) (board owner date title text name : Bytes) (draw : Nat → Int × Fin 4096)
    (fuel : Nat) (pt : PostPoint) (h : db.postUntil c fs board owner date title draw fuel text pt = .ok (name, fs')) :
    (∃ j, name = DB.articleName (draw j).1 (draw j).2) ∧
    db.readBoardArticleFile fs board name = .err "no such file or directory" ∧
    db.readBoardArticleFile fs' board name = .ok (pt.inFile text) ∧
    (WholeRecords db fs board → ∀ old, db.readArticleRecords c fs board = .ok old → db.readArticleRecords c fs' board =
      .ok (old ++ shownAs c (pt.inList ((DB.newArticleRecord name owner date title).marshal c)))) ∧
    ∃ D, fs.lookup db.cwd (boardDir db.home board) = .ok D ∧ SameExcept fs fs' [D ++ [name], D ++ [ascii ".DIR"]] := by
  unfold DB.postUntil at h
  obtain ⟨⟨r, fs1⟩, h1, h⟩ := Res.bind_eq_ok.mp h
  obtain ⟨j, rfl, hc⟩ := createArticleRecord_ok h1
  clear h1
  simp only at h
  have hn : DB.articleName (draw j).1 (draw j).2 = name := by
    cases pt with
    | created => injection Res.ok.inj h
    | recorded k =>
      obtain ⟨_, _, h⟩ := Res.bind_eq_ok.mp h
      obtain ⟨_, _, h⟩ := Res.bind_eq_ok.mp h
      injection Res.ok.inj h
    | written k =>
      obtain ⟨_, _, h⟩ := Res.bind_eq_ok.mp h
      obtain ⟨_, _, h⟩ := Res.bind_eq_ok.mp h
      injection Res.ok.inj h
  rw [hn] at hc h
  obtain ⟨_, p, _, _, _, hp, he⟩ := createFilename_ok hc
  obtain ⟨L, hL, hLg, rfl⟩ := createExcl_ok he
  obtain ⟨hb, rfl⟩ := articlePath_eq hp
  obtain ⟨D, hD, hDg⟩ := FS.lookup_parent (boardDir_ne_nil _ _) hL
  obtain ⟨hcomp, h0⟩ := articleName_component (draw j).1 (draw j).2
  rw [hn] at hcomp h0
  have hLe : L = D ++ [name] := by
    have := FS.lookup_child hD hDg hcomp h0
    rw [hL] at this
    exact Res.ok.inj this
  subst hLe
  have hne : D ++ [name] ≠ D ++ [ascii ".DIR"] := by
    intro e
    have e := List.append_cancel_left e
    have e : name = ascii ".DIR" := by simpa using e
    have := congrArg List.head? (hn.trans e)
    revert this
    have m1 : ascii "M." = [77, 46] := by decide
    have m2 : (ascii ".DIR").head? = some 46 := by decide
    simp [DB.articleName, m1, m2]
  have hLd : fs.get (D ++ [name]) ≠ some .dir := by rw [hLg]; simp
  have hm1 := FS.set_file_dirs (d := []) hLd
  have hD1 := FS.lookup_mono hm1 hD
  have hDg1 := hm1 _ hDg
  have hi : fs.lookup db.cwd (indexPath db.home board) = .ok (D ++ [ascii ".DIR"]) :=
    FS.lookup_child hD hDg ⟨by decide, by decide, by decide, by decide⟩ (by decide)
  have hi1 := FS.lookup_mono hm1 hi
  have hL1 := FS.lookup_mono hm1 hL
  have hg1 : (fs.set (D ++ [name]) (.file [])).get (D ++ [ascii ".DIR"]) = fs.get (D ++ [ascii ".DIR"]) := by
    rw [FS.get_set (FS.ne_root hLd), if_neg (Ne.symm hne)]
  have hfree : db.readBoardArticleFile fs board name = .err "no such file or directory" := by
    simp only [DB.readBoardArticleFile, hp, Res.ok_bind, FS.readFile_of hL, hLg]
  have hwhole : ∀ d, WholeRecords db fs board → fs.get (D ++ [ascii ".DIR"]) = some (.file d) → ∃ n, d.length = 128 * n := by
    intro d hwr hg
    exact hwr _ d (indexPath_of hb) (by rw [FS.readFile_of hi, hg])
  -- one append to the list
  have happ : ∀ (part : Bytes) (fs2 : FS), part.length ≤ 128 →
      (fs.set (D ++ [name]) (.file [])).appendCreate db.cwd (indexPath db.home board) part = .ok fs2 →
      (WholeRecords db fs board → ∃ old, db.readArticleRecords c fs board = .ok old ∧
        ∃ d', fs2.get (D ++ [ascii ".DIR"]) = some (.file d') ∧ openFileHeaderFile c (some d') = .ok (old ++ shownAs c part)) ∧
      (∀ q, (fs.set (D ++ [name]) (.file [])).get q = some .dir → fs2.get q = some .dir) ∧
      ∀ q, q ≠ D ++ [ascii ".DIR"] → fs2.get q = (fs.set (D ++ [name]) (.file [])).get q := by
    intro part fs2 hpl h2
    unfold FS.appendCreate at h2
    obtain ⟨⟨l, d⟩, ho, h2⟩ := Res.bind_eq_ok.mp h2
    obtain ⟨hl, hld, hd⟩ := FS.openCreate_ok ho
    rw [hi1] at hl
    have hl := Res.ok.inj hl
    subst hl
    have h2 := Res.ok.inj h2
    subst h2
    refine ⟨?_, FS.set_file_dirs hld, ?_⟩
    · intro hwr
      rw [readArticleRecords_at hb hD hDg, FS.get_set (FS.ne_root hld), if_pos rfl]
      rw [hg1] at hld
      unfold fileAt at hd
      rw [hg1] at hd
      cases hg : fs.get (D ++ [ascii ".DIR"]) with
      | none =>
        rw [hg] at hd
        have hd : d = [] := hd
        subst hd
        obtain ⟨old, k1, k2⟩ := read_partial c [] part 0 rfl hpl
        have k0 : old = [] := by
          have := openFileHeader_flatten c (rs := []) (by intro r hr; cases hr)
          rw [List.flatten_nil, k1] at this
          exact Res.ok.inj this
        subst k0
        exact ⟨[], rfl, _, rfl, k2⟩
      | some nd =>
        cases nd with
        | dir => exact absurd hg hld
        | file d' =>
          rw [hg] at hd
          have hd : d = d' := hd
          subst hd
          obtain ⟨n, hn'⟩ := hwhole d hwr hg
          obtain ⟨old, k1, k2⟩ := read_partial c d part n hn' hpl
          exact ⟨old, by simp only [k1], _, rfl, k2⟩
    · intro q hq
      rw [FS.get_set (FS.ne_root hld), if_neg hq]
  refine ⟨⟨j, hn.symm⟩, hfree, ?_⟩
  cases pt with
  | created =>
    have h := Res.ok.inj h
    injection h with _ h
    subst h
    refine ⟨?_, ?_, D, hD, ?_⟩
    · simp only [DB.readBoardArticleFile, hp, Res.ok_bind, PostPoint.inFile]
      exact FS.readFile_set hL hLd
    · intro hwr
      intro old ho
      simp only [PostPoint.inList, shownAs, if_pos, List.append_nil]
      rw [readArticleRecords_at hb hD1 hDg1, hg1, ← readArticleRecords_at hb hD hDg, ho]
    · intro q hq
      simp only [List.mem_cons, List.not_mem_nil, or_false, not_or] at hq
      rw [FS.get_set (FS.ne_root hLd), if_neg hq.1]
  | recorded k =>
    simp only [indexPath_of hb, Res.ok_bind] at h
    obtain ⟨fs2, h2, h⟩ := Res.bind_eq_ok.mp h
    have h := Res.ok.inj h
    injection h with _ h
    subst h
    obtain ⟨a1, a2, a3⟩ := happ _ fs2 (by
      rw [List.length_take, FileHeader.marshal_length]
      omega) h2
    have hDg2 := a2 _ hDg1
    refine ⟨?_, ?_, D, hD, ?_⟩
    · simp only [DB.readBoardArticleFile, hp, Res.ok_bind, PostPoint.inFile]
      rw [FS.readFile_of (FS.lookup_mono a2 hL1), a3 _ hne, FS.get_set (FS.ne_root hLd), if_pos rfl]
    · intro hwr
      intro old ho
      obtain ⟨old', k1, d', k2, k3⟩ := a1 hwr
      rw [ho] at k1
      have k1 := Res.ok.inj k1
      subst k1
      rw [readArticleRecords_at hb (FS.lookup_mono a2 hD1) hDg2, k2]
      simp only [k3, PostPoint.inList]
    · intro q hq
      simp only [List.mem_cons, List.not_mem_nil, or_false, not_or] at hq
      rw [a3 q hq.2, FS.get_set (FS.ne_root hLd), if_neg hq.1]
  | written k =>
    simp only [DB.addArticleRecord, indexPath_of hb, Res.ok_bind] at h
    obtain ⟨fs2, h2, h⟩ := Res.bind_eq_ok.mp h
    obtain ⟨fs3, h3, h⟩ := Res.bind_eq_ok.mp h
    have h := Res.ok.inj h
    injection h with _ h
    subst h
    obtain ⟨a1, a2, a3⟩ := happ _ fs2 (by rw [FileHeader.marshal_length]; omega) h2
    have hDg2 := a2 _ hDg1
    have hL2 := FS.lookup_mono a2 hL1
    unfold DB.writeBoardArticleFile at h3
    rw [show (DB.newArticleRecord name owner date title).filename = name from rfl, hp, Res.ok_bind] at h3
    unfold FS.overwrite at h3
    obtain ⟨⟨l, d3⟩, ho3, h3⟩ := Res.bind_eq_ok.mp h3
    obtain ⟨hl3, hld3, hd3⟩ := FS.openCreate_ok ho3
    rw [hL2] at hl3
    have hl3 := Res.ok.inj hl3
    subst hl3
    have hd3 : d3 = [] := by
      rw [hd3]
      unfold fileAt
      rw [a3 _ hne, FS.get_set (FS.ne_root hLd), if_pos rfl]
      rfl
    subst hd3
    have hw : writeAt [] 0 (text.take k) = text.take k := by simp [writeAt]
    simp only [hw] at h3
    have h3 := Res.ok.inj h3
    subst h3
    have hm3 := FS.set_file_dirs (d := text.take k) hld3
    refine ⟨?_, ?_, D, hD, ?_⟩
    · simp only [DB.readBoardArticleFile, hp, Res.ok_bind, PostPoint.inFile]
      exact FS.readFile_set hL2 hld3
    · intro hwr
      intro old ho
      obtain ⟨old', k1, d', k2, k3⟩ := a1 hwr
      rw [ho] at k1
      have k1 := Res.ok.inj k1
      subst k1
      rw [readArticleRecords_at hb (FS.lookup_mono hm3 (FS.lookup_mono a2 hD1)) (hm3 _ hDg2), FS.get_set (FS.ne_root hld3),
        if_neg (Ne.symm hne), k2]
      simp only [k3, PostPoint.inList]
    · intro q hq
      simp only [List.mem_cons, List.not_mem_nil, or_false, not_or] at hq
      rw [FS.get_set (FS.ne_root hld3), if_neg hq.1, a3 q hq.2, FS.get_set (FS.ne_root hLd), if_neg hq.1]

/-- A complete record shows as what is stored of it. -/
theorem shown_whole (c : Codec) (r : FileHeader) : shownAs c (r.marshal c) = [storedArticle c r] := by
  have hl := r.marshal_length c
  unfold shownAs
  rw [if_neg (by intro e; rw [e] at hl; simp at hl), padTo_eq_of_length hl, FileHeader.parse_marshal_exact]

/-- Posting goes through all these points, and ends at the last. -/
theorem C102_points (db : DB) (c : Codec) (fs fs' : FS) (board owner date title text name : Bytes) (draw : Nat → Int × Fin 4096)
    (fuel : Nat) (h : Posted db c fs fs' board owner date title text name draw fuel) :
    (∀ pt, ∃ fs1, db.postUntil c fs board owner date title draw fuel (c.enc text) pt = .ok (name, fs1)) ∧
    ∀ k, (c.enc text).length ≤ k → db.postUntil c fs board owner date title draw fuel (c.enc text) (.written k) = .ok (name, fs') := by
  obtain ⟨r, fs1, fs2, h1, h2, h3, rfl⟩ := h.steps
  constructor
  · intro pt
    unfold DB.postUntil
    rw [h1, Res.ok_bind]
    cases pt with
    | created => exact ⟨_, rfl⟩
    | recorded k =>
      unfold DB.addArticleRecord at h2
      obtain ⟨p, hp, h2⟩ := Res.bind_eq_ok.mp h2
      unfold FS.appendCreate at h2
      obtain ⟨x, ho, _⟩ := Res.bind_eq_ok.mp h2
      simp only [hp, Res.ok_bind, FS.appendCreate, ho]
      exact ⟨_, rfl⟩
    | written k =>
      unfold DB.writeBoardArticleFile at h3
      obtain ⟨p, hp, h3⟩ := Res.bind_eq_ok.mp h3
      unfold FS.overwrite at h3
      obtain ⟨x, ho, _⟩ := Res.bind_eq_ok.mp h3
      simp only [h2, Res.ok_bind, DB.writeBoardArticleFile, hp, FS.overwrite, ho]
      exact ⟨_, rfl⟩
  · intro k hk
    unfold DB.postUntil
    rw [h1, Res.ok_bind]
    simp only [h2, Res.ok_bind, List.take_of_length_le hk, h3]

/-- **C102, what holds.** An article whose record is completely in the list has a file, with a beginning of the text; when the tool has ended
the text is complete. -/
theorem C102_listed_partial (db : DB) (c : Codec) (fs fs' : FS) (board owner date title text name : Bytes) (draw : Nat → Int × Fin 4096)
    (fuel : Nat) (pt : PostPoint) (hw : WholeRecords db fs board)
    (h : db.postUntil c fs board owner date title draw fuel text pt = .ok (name, fs')) (old : List FileHeader)
    (ho : db.readArticleRecords c fs board = .ok old) :
    (pt = .created ∨ pt = .recorded 0 → db.readArticleRecords c fs' board = .ok old) ∧
    (∀ k, 128 ≤ k → pt = .recorded k →
      db.readArticleRecords c fs' board = .ok (old ++ [storedArticle c (DB.newArticleRecord name owner date title)]) ∧
      db.readBoardArticleFile fs' board name = .ok []) ∧
    (∀ k, pt = .written k →
      db.readArticleRecords c fs' board = .ok (old ++ [storedArticle c (DB.newArticleRecord name owner date title)]) ∧
      db.readBoardArticleFile fs' board name = .ok (text.take k)) := by
  obtain ⟨_, _, h3, h4, _⟩ := C102_crash_exact _ _ _ _ _ _ _ _ _ _ _ _ _ h
  have h4 := h4 hw old ho
  refine ⟨?_, ?_, ?_⟩
  · rintro (rfl | rfl)
    · simpa [PostPoint.inList, shownAs] using h4
    · simpa [PostPoint.inList, shownAs] using h4
  · rintro k hk rfl
    refine ⟨?_, h3⟩
    rw [h4]
    simp only [PostPoint.inList]
    rw [List.take_of_length_le (by rw [FileHeader.marshal_length]; exact hk), shown_whole]
  · rintro k rfl
    refine ⟨?_, h3⟩
    rw [h4]
    simp only [PostPoint.inList]
    rw [shown_whole]

theorem sampleFS_whole : WholeRecords sampleDB sampleFS (ascii "S") := by
  intro p d hp hr
  have hp := Res.ok.inj hp
  subst hp
  have e : sampleFS.readFile sampleDB.cwd (indexPath sampleDB.home (ascii "S")) = .err "no such file or directory" := by decide +kernel
  exact absurd (e.symm.trans hr) (by simp)

/-- The hypotheses of C102 hold: the tool dies after 2 bytes of the text, or of the record. -/
example : ∀ pt ∈ [PostPoint.written 2, .recorded 2, .created], ∃ fs', sampleDB.postUntil asciiCodec sampleFS (ascii "S") (ascii "pichu")
    (ascii "11/16") (ascii "hi") (fun _ => (1600000000, 0xABC)) 1 (ascii "hello") pt = .ok (ascii "M.1600000000.A.ABC", fs') := by
  intro pt hpt
  simp only [List.mem_cons, List.not_mem_nil, or_false] at hpt
  rcases hpt with rfl | rfl | rfl <;> exact ⟨_, rfl⟩

/-- The full claim: wherever the tool dies, an article that the list has gained holds its whole text. -/
def Spec.ListedComplete : Prop :=
  ∀ (db : DB) (c : Codec) (fs fs' : FS) (board owner date title text name : Bytes) (draw : Nat → Int × Fin 4096) (fuel : Nat)
    (pt : PostPoint), WholeRecords db fs board → db.postUntil c fs board owner date title draw fuel text pt = .ok (name, fs') →
    ∀ old new, db.readArticleRecords c fs board = .ok old → db.readArticleRecords c fs' board = .ok (old ++ new) →
    ∀ r ∈ new, db.readBoardArticleFile fs' board r.filename = .ok text

/-- **C102 is false of the code:** the list names the article before its text is there. -/
theorem C102_listed_refuted : ¬ Spec.ListedComplete := by
  intro h
  have hp : ∃ fs', sampleDB.postUntil asciiCodec sampleFS (ascii "S") (ascii "pichu") (ascii "11/16") (ascii "hi")
      (fun _ => (1600000000, 0xABC)) 1 (ascii "hello") (.recorded 128) = .ok (ascii "M.1600000000.A.ABC", fs') ∧
      sampleDB.readArticleRecords asciiCodec sampleFS (ascii "S") = .ok [] := by
    refine ⟨_, rfl, ?_⟩
    decide +kernel
  obtain ⟨fs', hp, h0⟩ := hp
  have hw := sampleFS_whole
  obtain ⟨h4, h3⟩ := (C102_listed_partial _ _ _ _ _ _ _ _ _ _ _ _ _ hw hp [] h0).2.1 128 (Nat.le_refl _) rfl
  have h5 := h _ _ _ _ _ _ _ _ _ _ _ _ _ hw hp [] _ h0 h4 _ List.mem_cons_self
  have e : (storedArticle asciiCodec (DB.newArticleRecord (ascii "M.1600000000.A.ABC") (ascii "pichu") (ascii "11/16") (ascii "hi"))).filename =
      ascii "M.1600000000.A.ABC" := by decide +kernel
  rw [e, h3] at h5
  revert h5
  decide

/-- The fields of a torn record. -/
theorem slice_torn {m : Bytes} {n k a b : Nat} (hm : m.length = n) (hb : b ≤ n) :
    slice (padTo n (m.take k)) a b = padTo (b - a) ((slice m a b).take (k - a)) := by
  apply List.ext_getElem
  · simp only [slice_length, padTo_length]
    omega
  · intro i h1 h2
    rw [padTo_length] at h2
    have e1 : (slice (padTo n (m.take k)) a b)[i]? = if a + i < k then m[a + i]? else some 0 := by
      rw [slice_getElem?, if_pos (by omega)]
      unfold padTo
      rw [List.getElem?_append, List.length_take, List.length_take]
      split
      · next h => rw [if_pos (by omega), List.getElem?_take_of_lt (by omega), List.getElem?_take_of_lt (by omega)]
      · next h =>
        rw [if_neg (by omega), zeros, List.getElem?_replicate, if_pos (by omega)]
    have e2 : (padTo (b - a) ((slice m a b).take (k - a)))[i]? = if a + i < k then m[a + i]? else some 0 := by
      unfold padTo
      rw [List.getElem?_append, List.length_take, List.length_take, slice_length]
      split
      · next h => rw [if_pos (by omega), List.getElem?_take_of_lt (by omega), List.getElem?_take_of_lt (by omega), slice_getElem?, if_pos (by omega)]
      · next h => rw [if_neg (by omega), zeros, List.getElem?_replicate, if_pos (by omega)]
    have := e1.trans e2.symm
    rw [List.getElem?_eq_getElem h1, List.getElem?_eq_getElem (by rw [padTo_length]; exact h2)] at this
    exact Option.some.inj this

theorem trim_torn {s : Bytes} (h : (0 : UInt8) ∉ s) (n k : Nat) : cutTrim n ((padTo n s).take k) = s.take (min k n) := by
  have hz : ∀ x : Bytes, (0 : UInt8) ∉ x → NulEndsFree x := fun x hx =>
    ⟨fun e => hx (List.mem_of_head? e), fun e => hx (List.mem_of_getLast? e)⟩
  have ht : (0 : UInt8) ∉ s.take (min k n) := fun e => h (List.mem_of_mem_take e)
  have e : ∃ r, (padTo n s).take k = s.take (min k n) ++ zeros r := by
    refine ⟨min (n - s.length) (k - min n s.length), ?_⟩
    unfold padTo
    rw [List.take_append, List.take_take, List.length_take, zeros, List.take_replicate, Nat.min_comm (k - _)]
    rfl
  obtain ⟨r, e⟩ := e
  have hl : (s.take (min k n) ++ zeros r).length ≤ n := by
    rw [← e, List.length_take, padTo_length]
    omega
  rw [e]
  unfold cutTrim
  rw [List.take_of_length_le hl, trimNul_append_zeros (hz _ ht)]

/-- **C102, a torn record.** If the process dies within the record, the list shows an article with the beginning of the name; a name that is
cut off is not the name of the new file. -/
theorem C102_torn (db : DB) (c : Codec) (fs fs' : FS) (board owner date title text name : Bytes) (draw : Nat → Int × Fin 4096)
    (fuel : Nat) (k : Nat) (hk : 0 < k) (hw : WholeRecords db fs board)
    (h : db.postUntil c fs board owner date title draw fuel text (.recorded k) = .ok (name, fs')) (old : List FileHeader)
    (ho : db.readArticleRecords c fs board = .ok old) :
    ∃ r, db.readArticleRecords c fs' board = .ok (old ++ [r]) ∧ r.filename = name.take (min k 28) ∧
      (k ≤ 54 → r.title = c.dec []) ∧ (k ≤ 34 → r.owner = []) ∧
      db.readBoardArticleFile fs' board name = .ok [] := by
  obtain ⟨⟨j, hn⟩, _, h3, h4, _⟩ := C102_crash_exact _ _ _ _ _ _ _ _ _ _ _ _ _ h
  have h4 := h4 hw old ho
  obtain ⟨hcomp, h0⟩ := articleName_component (draw j).1 (draw j).2
  rw [← hn] at h0
  have hml := (DB.newArticleRecord name owner date title).marshal_length c
  have hne : ((DB.newArticleRecord name owner date title).marshal c).take k ≠ [] := by
    intro e
    have := congrArg List.length e
    rw [List.length_take, hml] at this
    simp at this
    omega
  have hs : shownAs c (((DB.newArticleRecord name owner date title).marshal c).take k) =
      [FileHeader.parse c (padTo 128 (((DB.newArticleRecord name owner date title).marshal c).take k))] := if_neg hne
  simp only [PostPoint.inList] at h4
  rw [hs] at h4
  refine ⟨_, h4, ?_, ?_, ?_, h3⟩
  · have hin := (DB.newArticleRecord name owner date title).writesIn c
    have hdj := (DB.newArticleRecord name owner date title).writesDisjoint c
    have h1 : slice ((DB.newArticleRecord name owner date title).marshal c) 0 28 = padTo 28 name :=
      read_copy hin hdj (by simp [FileHeader.writes, DB.newArticleRecord])
    simp only [FileHeader.parse]
    rw [slice_torn hml (by omega), h1, trimNul_padTo_cut]
    exact trim_torn h0 28 k
  · intro hk
    simp only [FileHeader.parse]
    rw [slice_torn hml (by omega), show k - 54 = 0 by omega, List.take_zero]
    rfl
  · intro hk
    simp only [FileHeader.parse]
    rw [slice_torn hml (by omega), show k - 34 = 0 by omega, List.take_zero]
    rfl

end Verif
