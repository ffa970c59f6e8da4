import Verif.Props.Api
import Verif.Props.FavItems
import Verif.Props.Lists
/-!
# Cases: paths, articles and lists

Each theorem named is applied to something that meets its hypotheses.
-/

namespace Verif
open Spec

/-! ## Paths -/

theorem case_component (s : Bytes) (h : s ≠ [] ∧ slash ∉ s ∧ s ≠ ascii "." ∧ s ≠ ascii "..") : Component s := ⟨h.1, h.2.1, h.2.2.1, h.2.2.2⟩

/-- `C18_location`: a mail of a user, seen from another directory. -/
example : ∃ p, (Obj.mail (ascii "Ab") (ascii "M.1.A")).path (ascii "bbs") = .ok p ∧
    resolve [ascii "srv"] p = homeDir [ascii "srv"] (ascii "bbs") ++ (Obj.mail (ascii "Ab") (ascii "M.1.A")).loc :=
  C18_location _ _ _ (by
    intro s hs
    simp only [Obj.names, List.mem_cons, List.not_mem_nil, or_false] at hs
    rcases hs with rfl | rfl <;> exact case_component _ (by decide))

/-- `C20_distinct_objects`: a draft and a mail of one user. -/
example : ∃ p p', (Obj.draft (ascii "Ab") (ascii "1")).path (ascii "/bbs") = .ok p ∧ (Obj.mail (ascii "Ab") (ascii "M.1.A")).path (ascii "/bbs") = .ok p' ∧
    resolve [] p ≠ resolve [] p' :=
  C20_distinct_objects _ _ _ _ (by
      intro s hs
      simp only [Obj.names, List.mem_cons, List.not_mem_nil, or_false] at hs
      rcases hs with rfl | rfl <;> exact case_component _ (by decide))
    (by
      intro s hs
      simp only [Obj.names, List.mem_cons, List.not_mem_nil, or_false] at hs
      rcases hs with rfl | rfl <;> exact case_component _ (by decide)) trivial ⟨by decide, by decide, by decide⟩ (by simp)

/-- `C21_panics_iff`: a user without a name. -/
example : (Obj.draft [] (ascii "1")).path (ascii "/bbs") = .panic := (C21_panics_iff _ _).1.mpr rfl
example : (Obj.draft (ascii "Ab") []).path (ascii "/bbs") ≠ .panic := fun h => by
  have := (C21_panics_iff (ascii "/bbs") (.draft (ascii "Ab") [])).1.mp h
  revert this
  decide

/-- `C22_effect`: one of two parts given, the second lying behind it in the same array; a third array is untouched. -/
example : (treasureDirIn ⟨fun _ => [ascii "D1", ascii "D2"], 2⟩ (ascii "/bbs") (ascii "b") ⟨0, 0, 1, 2⟩).1.view ⟨1, 0, 2, 2⟩ = [ascii "D1", ascii "D2"] :=
  (C22_effect ⟨fun _ => [ascii "D1", ascii "D2"], 2⟩ (ascii "/bbs") (ascii "b") [] ⟨0, 0, 1, 2⟩ (by decide)).2.2.2.2 ⟨1, 0, 2, 2⟩ (by decide)
    (.inr (.inl (by decide)))

/-! ## Articles -/

/-- `C24_new_name_is_fresh`. -/
example : ∃ name fs', sampleDB.readBoardArticleFile sampleFS (ascii "S") name = .err "no such file or directory" ∧
    sampleDB.readBoardArticleFile fs' (ascii "S") name = .ok [] := by
  obtain ⟨h1, h2, -⟩ := C24_new_name_is_fresh sampleDB sampleFS _ (ascii "S") _ (fun k => (1600000000 + k, 0xABC)) 1 rfl
  exact ⟨_, _, h1, h2⟩

/-- `C25_create_returns_partial`: the first name drawn is taken, the second is free. -/
example : ∃ (j : Nat) (fs' : FS), j ≤ 1 ∧ sampleDB.createFilename
      (sampleFS.set [ascii "bbs", ascii "boards", ascii "S", ascii "S", ascii "M.1600000000.A.ABC"] (.file [])) (ascii "S")
      (fun k => (1600000000 + (k : Int), 0xABC)) 5 0 = .ok (DB.articleName (1600000000 + (j : Int)) 0xABC, fs') :=
  C25_create_returns_partial sampleDB (sampleFS.set [ascii "bbs", ascii "boards", ascii "S", ascii "S", ascii "M.1600000000.A.ABC"] (.file []))
    (ascii "S") (by decide) ⟨[ascii "bbs", ascii "boards", ascii "S", ascii "S"], by decide +kernel, by decide +kernel⟩
    (fun k => (1600000000 + (k : Int), 0xABC)) 1 (by decide +kernel) 5 (by decide)

/-- `C26_write_effect`: a shorter text over a longer one. -/
example : ∃ fs', sampleDB.writeBoardArticleFile
      (sampleFS.set [ascii "bbs", ascii "boards", ascii "S", ascii "S", ascii "f"] (.file (ascii "old text"))) (ascii "S") (ascii "f") (ascii "new") = .ok fs' ∧
    sampleDB.readBoardArticleFile fs' (ascii "S") (ascii "f") = .ok (ascii "new text") := by
  refine ⟨_, rfl, ?_⟩
  obtain ⟨old, h1, h2, -⟩ := C26_write_effect sampleDB
    (sampleFS.set [ascii "bbs", ascii "boards", ascii "S", ascii "S", ascii "f"] (.file (ascii "old text"))) _ (ascii "S") (ascii "f") (ascii "new") rfl
  have h3 : sampleDB.readBoardArticleFile (sampleFS.set [ascii "bbs", ascii "boards", ascii "S", ascii "S", ascii "f"] (.file (ascii "old text")))
      (ascii "S") (ascii "f") = .ok (ascii "old text") := by decide +kernel
  rw [h3] at h1
  rcases h1 with h1 | ⟨h1, -⟩
  · rw [h2, ← Res.ok.inj h1]; decide +kernel
  · cases h1

/-- `C28_add_exact`, `C28_add_effect`: a record added to the list of a board that has none. -/
example : ∃ fs' old, sampleDB.addArticleRecord asciiCodec createdFS (ascii "S") sampleArticle = .ok fs' ∧
    sampleDB.readArticleRecords asciiCodec createdFS (ascii "S") = .ok old ∧
    sampleDB.readArticleRecords asciiCodec fs' (ascii "S") = .ok (old ++ [storedArticle asciiCodec sampleArticle]) := by
  obtain ⟨fs', h⟩ := createdFS_add sampleArticle
  obtain ⟨old, h1, h2⟩ := C28_add_exact sampleDB asciiCodec createdFS fs' (ascii "S") sampleArticle createdFS_whole h
  exact ⟨fs', old, h, h1, h2⟩

/-! ## Files of records -/

/-- `C10_article_exact`, `C10_article_append_read`: three records in a file that was not there. -/
example : ∃ old : List FileHeader, old.length = 0 ∧
    openFileHeaderFile asciiCodec ([sampleArticle, sampleArticle, sampleArticle].foldl (appendFileHeader asciiCodec) none) =
      .ok (old ++ [sampleArticle, sampleArticle, sampleArticle].map (storedArticle asciiCodec)) := by
  obtain ⟨old, -, h1, h2⟩ := C10_article_exact asciiCodec none 0 rfl [sampleArticle, sampleArticle, sampleArticle] (.inr (by simp))
  exact ⟨old, h1, h2⟩
example : ∃ old : List FileHeader, old.length = 0 ∧
    openFileHeaderFile asciiCodec ([sampleArticle, sampleArticle].foldl (appendFileHeader asciiCodec) none) =
      .ok (old ++ [sampleArticle, sampleArticle].map persisted) := by
  obtain ⟨old, -, h1, h2⟩ := C10_article_append_read asciiCodec none 0 rfl [sampleArticle, sampleArticle] (.inr (by simp))
    (by simp [sampleArticle_storable])
  exact ⟨old, h1, h2⟩

/-- `C11_update_in_range`: the last of three. -/
example : ∃ d', updateFileHeader asciiCodec (some (zeros 384)) 2 sampleArticle = .ok d' ∧ d'.length = (zeros 384).length := by
  obtain ⟨d', h1, h2, -⟩ := C11_update_in_range asciiCodec (zeros 384) 3 (by simp) (by decide) 2 (by decide) sampleArticle
  exact ⟨d', h1, h2⟩

/-- `C11_update_outside_partial`: the eighth of three. -/
example : ∃ d', updateRecord (some (zeros 384)) 7 (List.replicate 128 1) = .ok d' ∧
    slots 128 d' = slots 128 (zeros 384) ++ List.replicate 4 (zeros 128) ++ [List.replicate 128 1] :=
  C11_update_outside_partial (zeros 384) 3 (by simp) 7 (by decide) (by decide) _ (by simp)

/-- `C15_concurrent_appends`: two appenders, the second finishing first. -/
example : let s := (ApState.start none).run (fun _ => sampleArticle.marshal asciiCodec) [0, 1, 1, 0, 0, 1]
    s.order.Nodup ∧ ∀ i, i ∈ s.order ↔ 2 ≤ s.pc i := by
  obtain ⟨h1, h2, -⟩ := C15_concurrent_appends asciiCodec none 0 rfl (fun _ => sampleArticle) [0, 1, 1, 0, 0, 1]
  exact ⟨h1, h2⟩

/-! ## Databases, lists and favourites -/

/-- `C30_independent_partial`: another driver opened, and the first replaced and opened. -/
example : ∃ r1, (initRegistry.register (ascii "other") 2).openDB (ascii "pttbbs") (ascii "/a") = .ok (1, r1) ∧
    homeOf (RegOp.execAll r1 [.openDB (ascii "other") (ascii "/b"), .register (ascii "pttbbs") 3, .openDB (ascii "pttbbs") (ascii "/c")]) 1 = ascii "/a" := by
  refine ⟨_, rfl, ?_⟩
  rw [C30_independent_partial (initRegistry.register (ascii "other") 2) _ (ascii "pttbbs") (ascii "/a") 1 rfl]
  · decide
  · refine ⟨?_, ?_, ?_, trivial⟩
    · show (initRegistry.register (ascii "other") 2).drivers (ascii "other") ≠ some 1
      decide
    · exact id
    · show _ ≠ some 1
      decide

/-- `C32_empty_name_panics`: a vacated slot. -/
example : sampleDB.userArticles asciiCodec vacantFS (ascii "lex") = .panic :=
  C32_empty_name_panics sampleDB asciiCodec vacantFS [] [] vacantBoard _ _ vacant_onDisk (by simp) rfl

/-- `C36_typed_accessors`. -/
example (items : List FavItem) (h : sampleDB.readFavorites asciiCodec (favFS favTree) (ascii "Ab") = .ok items) (it : FavItem)
    (hr : Spec.Reachable items it) (hk : it.kind = .line) : ∃ id, it.getLine = some id :=
  ((C36_typed_accessors _ _ _ _ _ h it hr).2.2 hk).2.2

/-! ## The database as a map -/

theorem sampleCalls_placed : ∀ op ∈ sampleCalls, ∀ o, touches op o → Placed sampleDB sampleFS o := by
  obtain ⟨h1, h2, h3, h4⟩ := sample_placed
  intro op hop o ho
  simp only [sampleCalls, List.mem_cons, List.not_mem_nil, or_false] at hop
  rcases hop with rfl | rfl | rfl | rfl | rfl
  · obtain ⟨k, rfl⟩ := ho; exact h4
  · rw [show o = _ from ho]; exact h4
  · rw [show o = _ from ho]; exact h1
  · rw [show o = _ from ho]; exact h3
  · rw [show o = _ from ho]; exact h2

/-- `C103_database_is_a_map`. -/
example : (Call.execAll sampleDB asciiCodec sampleFS sampleCalls).2 = (intendedAll asciiCodec (fun o => fileAt sampleFS (at_ sampleDB o)) sampleCalls).2 :=
  (C103_database_is_a_map _ _ _ _ sampleCalls_placed).1

/-- `C103_never_written`. -/
example : ¬ changes (.writeDraft (ascii "Ab") (ascii "1") (ascii "x")) .passwd := fun h => by
  rcases C103_never_written _ _ h with h | ⟨_, h⟩ | ⟨_, _, h⟩ | ⟨_, _, h⟩ <;> cases h

end Verif
