import Verif.Props.Refusal
import Verif.Props.LiveNumbers
import Verif.Props.MappedFile
/-!
# Cases: refusals, numbers read beside a writer, mapped files

Each theorem named is applied to something that meets its hypotheses.
-/

namespace Verif
open Spec

/-! ## Refusals -/

theorem refusal_one {n : Nat} {e e' : String} (h : Refusal [(n, some e)] e') : e' = e := by
  obtain ⟨m, hm⟩ := h
  cases List.mem_singleton.mp hm
  rfl

/-- `C139_makers`: a board that is not added. -/
example := C139_makers mixedDB mixedCodec mixedFS (.addBoard (BoardHeader.parse mixedCodec (zeros 256))) [(0, some "input/output error")] _ _ trivial rfl

/-- `C139_draft`, `C139_draft_empty`: a draft that is read as if it were not there. -/
example := C139_draft mixedDB mixedCodec mixedFS (ascii "pichu") (ascii "0") [(0, some "input/output error")] _ _
  (C139_draft_empty mixedDB mixedCodec mixedFS (ascii "pichu") (ascii "0") (by decide) 0 "input/output error")

/-- `C139_users`, `C139_boards`, `C139_treasures`, `C139_articles`, `C139_favourites`: the file is not opened. -/
example := C139_users mixedDB mixedCodec mixedFS [(0, some "input/output error")] mixedFS _ rfl
example := C139_boards mixedDB mixedCodec mixedFS [(0, some "input/output error")] mixedFS _ rfl
example := C139_treasures mixedDB mixedCodec mixedFS (ascii "S") [] [(0, some "input/output error")] mixedFS _ rfl
example := C139_articles mixedDB mixedCodec mixedFS (ascii "S") [(0, some "input/output error")] mixedFS _
  (fun e h => by rw [refusal_one h]; decide) rfl
example := C139_favourites mixedDB mixedCodec mixedFS (ascii "pichu") [(0, some "input/output error")] mixedFS _ rfl

/-- `C139_lists_exact`, `C139_endless`: an empty list. -/
example := C139_endless sampleDB asciiCodec emptyListFS (.listArticles (ascii "S")) _ [] rfl (by decide +kernel) 0 [(0, some "input/output error")]
  (by decide)

/-- `C139_create_hangs`, `C139_create`: one refusal and one draw. -/
example := C139_create_hangs mixedDB mixedCodec mixedFS (ascii "S") [] [] [] (by decide) (fun _ => (1605510000, 0)) 1 [(0, some "input/output error")] (by decide)
example := C139_create mixedDB mixedCodec mixedFS (ascii "S") [] [] [] (fun _ => (1605510000, 0)) 1 [(0, some "input/output error")] _ _
  (C139_create_hangs mixedDB mixedCodec mixedFS (ascii "S") [] [] [] (by decide) (fun _ => (1605510000, 0)) 1 [(0, some "input/output error")] (by decide))

/-! ## Numbers -/

/-- A number goes from three to five. -/
def caseMemory : Nat → Bytes := fun t => if t < 2 then [0, 3, 0, 0, 0] else [0, 5, 0, 0, 0]

theorem caseMemory_covers : Covers caseMemory 1 := fun t => by
  unfold caseMemory
  split <;> decide

/-- `C130_exact`, `C130_partial`, `C130_one_load`, `C130_small`. -/
example := C130_exact caseMemory 1 (fun k => 3 - k) caseMemory_covers 2 (by decide)
example := C130_partial caseMemory 1 (fun k => 3 - k) caseMemory_covers 0 (by decide)
example := C130_one_load caseMemory 1 5 (fun _ => 5) caseMemory_covers (fun _ _ => rfl)
example := C130_small caseMemory 1 (fun k => 3 - k) caseMemory_covers (by decide)

/-- `C130_sign`: the money of the first user. -/
example := C130_sign ⟨0, 0, 0, 0, 1, 0, 0, 0, 0, 0⟩ caseMemory 0 (fun k => 3 - k) caseMemory_covers (fun t => by
  show 0 ≤ (rd32 (slice (caseMemory t) 1 5)).toInt32.toInt
  unfold caseMemory
  split <;> decide)

/-! ## Mapped files -/

theorem twoMaps_reachable : MmapReachable twoMaps := ⟨_, rfl⟩

/-- `C89_create_exact`: a file that is there is made again, with and without a size. -/
example := (C89_create_exact twoMaps twoMaps_reachable (ascii "bbs.shm") 8 2).2
example := (C89_create_exact twoMaps twoMaps_reachable (ascii "bbs.shm") 0 2).1

/-- `C89_store_exact`. -/
example : ∃ t, twoMaps.store ⟨1, 4⟩ 2 [7] = .ok t ∧ t.names = twoMaps.names := by
  obtain ⟨t, h⟩ := ((C89_access_exact twoMaps ⟨1, 4⟩).2 2 [7]).1 ⟨⟨0, 4, by decide, by decide⟩, by decide⟩
  obtain ⟨-, -, -, hn, -⟩ := C89_store_exact _ _ _ _ _ h
  exact ⟨t, h, hn⟩

/-- `C89_view_exact`, `C89_until_closed_partial`, `C89_persists`. -/
example := C89_view_exact twoMaps ⟨1, 3⟩ 0 4 (by decide) (by decide)
example := C89_until_closed_partial twoMaps twoMaps_reachable (ascii "bbs.shm") 0 4 ⟨1, 4⟩ (by decide) (by decide) (by decide)
  [.remove (ascii "bbs.shm"), .create (ascii "x") 4 5] (fun size b h => by simp at h; exact absurd h.1 (by decide)) (by simp)
example := C89_persists twoMaps twoMaps_reachable (ascii "bbs.shm") (.create (ascii "x") 4 5) (fun _ _ h => by simp at h; exact absurd h.1 (by decide))
  (fun h => by cases h) (fun _ _ _ h => by cases h)

end Verif
