import Verif.Props.BoardRemoval
import Verif.Props.DraftRace
import Verif.Props.CacheValue
import Verif.Props.RandomNames
import Verif.Props.Recommend
import Verif.Props.PostCrash
/-!
# Cases: crashes and races

Each theorem named is applied to something that meets its hypotheses.
-/

namespace Verif
open Spec

/-! ## Removing a board -/

theorem case_sized : Sized 256 [List.replicate 256 (1 : UInt8), List.replicate 256 2, List.replicate 256 3] := by
  intro r hr
  simp only [List.mem_cons, List.not_mem_nil, or_false] at hr
  rcases hr with rfl | rfl | rfl <;> exact List.length_replicate

/-- `C13_crash_exact`, `C13_crash_content`, `C14_lost_window`: the second of three. -/
example : ∃ s0, removeStart (some [List.replicate 256 (1 : UInt8), List.replicate 256 2, List.replicate 256 3].flatten) 1 = .ok s0 := by
  obtain ⟨s0, h, -⟩ := C13_crash_exact _ case_sized (by decide +kernel) 1 (by decide) (by decide)
  exact ⟨s0, h⟩
example : ∃ s0, removeStart (some [List.replicate 256 (1 : UInt8), List.replicate 256 2, List.replicate 256 3].flatten) 2 = .ok s0 := by
  obtain ⟨s0, h, -⟩ := C13_crash_content _ case_sized (by decide +kernel) 2 (by decide) (by decide)
  exact ⟨s0, h⟩
example : ∃ s0, removeStart (some [List.replicate 256 (1 : UInt8), List.replicate 256 2, List.replicate 256 3].flatten) 0 = .ok s0 ∧
    ∀ acts s, s0.run acts = some s → s.phase = .done → ∃ acts1 mid acts2, acts = acts1 ++ .eof :: (mid ++ .trunc :: acts2) ∧
      s.file = ([List.replicate 256 (1 : UInt8), List.replicate 256 2, List.replicate 256 3].eraseIdx 0).flatten ++ appendedBy acts1 ++ appendedBy acts2 := by
  obtain ⟨s0, h, hs⟩ := C14_lost_window _ case_sized 0 (by decide) (by decide) (by decide +kernel)
  refine ⟨s0, h, fun acts s hr hd => ?_⟩
  obtain ⟨a, m, b, h1, -, -, h2⟩ := hs acts s hr hd
  exact ⟨a, m, b, h1, h2⟩

/-! ## Drafts -/

/-- `C101_every_prefix`: a crash in the middle of a draft. -/
example : ∃ acts s, (PutState.init (some (ascii "old"))).run (fun _ => ascii "hello") acts = some s ∧ s.file = some (ascii "he") := by
  obtain ⟨acts, s, -, h1, h2⟩ := C101_every_prefix (some (ascii "old")) (fun _ => ascii "hello") 7 2 (by decide)
  exact ⟨acts, s, h1, h2⟩

/-! ## The value of a cache -/

/-- `C144_partial`: an unknown scheme, and a key that is no number. -/
example (m : Mem) : ∃ e, newCacheValue .unix m (ascii "redis" ++ 58 :: ascii "x") 3 = .ok (.nil, some e, m) :=
  C144_partial .unix m (ascii "redis") (ascii "x") (by decide) (.inl (by decide)) 3
example (m : Mem) : ∃ e, newCacheValue .unix m (ascii "shmkey" ++ 58 :: ascii "x") 3 = .ok (.nil, some e, m) :=
  C144_partial .unix m (ascii "shmkey") (ascii "x") (by decide) (.inr (by decide)) 3

/-- `C144_exact`: before anything was made. -/
example (m : Mem) (h : ShmReachable m.ipc) : ∃ v e m', newCacheValue .unix m (ascii "redis:x") 3 = .ok (v, e, m') ∧ (e ≠ none → m' = m) := by
  obtain ⟨v, e, m', h1, -, h3⟩ := C144_exact m h (ascii "redis:x") 3
  exact ⟨v, e, m', h1, fun he => (h3 he).1⟩

/-! ## Recommendations -/

/-- `C99_recommend_exact`, `C99_recommend_partial`: two readers one after the other. -/
example (r : Bytes) (hr : r.length = 128) : ∃ rs', ((RecState.init ([r].flatten)).run asciiCodec (fun _ => 0) (fun _ => 1)
      [.read 0, .write 0, .read 1, .write 1]).file = rs'.flatten ∧ Sized 128 rs' ∧
    rs'[0]?.map (fun r => (FileHeader.parse asciiCodec r).recommend) = some ((FileHeader.parse asciiCodec r).recommend + total (fun _ => 1) [0, 1]) :=
  C99_recommend_partial asciiCodec [r] (by intro x hx; rw [List.mem_singleton.mp hx]; exact hr) (fun _ => 0) (by simp) (fun _ => 1)
    [.read 0, .write 0, .read 1, .write 1] (by
      intro x hx
      simp at hx) 0 (by simp) [0, 1] (by decide)

end Verif
