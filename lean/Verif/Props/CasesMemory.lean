import Verif.Props.Cache
import Verif.Props.CacheExact
import Verif.Props.SharedMem
import Verif.Props.ServerMain
/-!
# Cases: the cache and the shared memory

Each theorem named is applied to something that meets its hypotheses.
-/

namespace Verif
open Spec

/-! ## The cache -/

def caseLayout : Layout := ⟨4, 5, 12, true, 3⟩

theorem caseLayout_valid : ValidLayout caseLayout := ⟨by decide, by decide, by decide, by decide, by decide +kernel⟩

/-- `C50_disjoint`, `C50_aligned`, `C50_least_padding`. -/
example : ∃ p, caculatePos caseLayout = .ok p ∧ (∀ x ∈ intTables caseLayout p, x % 4 = 0) ∧ p.nextInHash ≤ 88 := by
  obtain ⟨p, hp, -⟩ := C50_disjoint caseLayout caseLayout_valid
  exact ⟨p, hp, C50_aligned caseLayout caseLayout_valid p hp,
    C50_least_padding caseLayout caseLayout_valid p hp 88 (by decide) (by decide)⟩

/-- `C50_entries`: the second user and the last. -/
example := C50_entries caseLayout caseLayout_valid 1 4 (by decide) (by decide) (by decide)

/-- `C51_reads_partial`, `C51_user_info_never`: a segment of the size asked for. -/
example : ∃ c, newCacheState (zeros 46) ⟨1, 1, 0, false, 0⟩ = .ok c ∧ c.money 0 = .ok 0 ∧ c.userInfo asciiCodec 0 = .panic := by
  have e : caculatePos ⟨1, 1, 0, false, 0⟩ = .ok ⟨0, 4, 8, 10, 18, 0, 30, 38, 42, 46⟩ := by decide +kernel
  have h : ∃ c, newCacheState (zeros 46) ⟨1, 1, 0, false, 0⟩ = .ok c ∧ c.pos = ⟨0, 4, 8, 10, 18, 0, 30, 38, 42, 46⟩ := by
    unfold newCacheState
    rw [e]
    exact ⟨_, rfl, rfl⟩
  obtain ⟨c, hc, hp⟩ := h
  have hr := (C51_reads_partial ⟨1, 1, 0, false, 0⟩ ⟨by decide, by decide, by decide, by decide, by decide⟩ _ c hc (by rw [hp]; simp [zeros]) 0
    (by decide) (by decide)).2.1
  rw [hp] at hr
  exact ⟨c, hc, hr.trans (by decide +kernel), C51_user_info_never _ _ _ _ hc 0⟩

/-- `C51_alignment_zero`, `C51_negative_bits`. -/
example := C51_alignment_zero (zeros 46) ⟨0, 1, 0, false, 0⟩ rfl
example := C51_negative_bits (zeros 46) ⟨4, 1, 0, false, -1⟩ (by decide)

/-- `C52_exact`, `C52_file_partial`, `C52_plain`, `C52_key`, `C52_other`, `C52_bad_key`. -/
example := C52_exact (ascii "shmkey") (ascii "1228") (ascii ":x") (by decide) (by decide) (.inr rfl)
example := C52_file_partial (ascii "/tmp/bbs.shm") (by decide)
example := C52_plain (ascii "/tmp/bbs.shm") (by decide)
example := C52_key (-1228) (by decide) (by decide)
example := C52_other (ascii "http") (ascii "//localhost") (by decide) (by decide) (by decide)
example := C52_bad_key (ascii "12x") (by decide) (by decide)

/-! ## Shared memory -/

/-- `C87_keys_partial`: two segments. -/
example : ∃ t1 t2, openKey (List.foldl shmStep (noShm 100) [.create 1228 8 0, .create 1229 4 1]) 1228 2 = .ok (⟨2, 8⟩, t1) ∧
    openKey (List.foldl shmStep (noShm 100) [.create 1228 8 0, .create 1229 4 1]) 1229 3 = .ok (⟨3, 4⟩, t2) ∧ t1.map 2 ≠ t2.map 3 := by
  have hr : ShmReachable (List.foldl shmStep (noShm 100) [.create 1228 8 0, .create 1229 4 1]) := ⟨100, _, by decide, rfl⟩
  obtain ⟨t1, h1, -⟩ := (C87_open_exact _ hr 1228 2).1 0 ⟨1228, List.replicate 8 0, [0], false⟩ (by decide) (by decide) (by decide)
  obtain ⟨t2, h2, -⟩ := (C87_open_exact _ hr 1229 3).1 1 ⟨1229, List.replicate 4 0, [1], false⟩ (by decide) (by decide) (by decide)
  exact ⟨t1, t2, h1, h2, C87_keys_partial _ hr 1228 1229 (by decide) (by decide) (by decide) (by decide) (by decide) 2 3 _ _ _ _ h1 h2⟩

/-- `C87_create_exact`: a segment that is there, asked for too large, and one that is not there. -/
example := (C87_create_exact twoViews twoViews_reachable 1228 9 5 (by decide) (by decide) (by decide)).1 0
  ⟨1228, [0, 0, 7, 9, 0, 0, 0, 0], [1, 0], false⟩ (by decide) (by decide) (by decide)
example := (C87_create_exact (noShm 100) ⟨100, [], by decide, rfl⟩ 7 9 5 (by decide) (by decide) (by decide)).2 (.inr (by intro i g h; cases h))

/-- `C87_remove_exact`: one that is there, and one that is not. -/
example := (C87_remove_exact twoViews twoViews_reachable 1228).1 ⟨⟨0, ⟨1228, [0, 0, 7, 9, 0, 0, 0, 0], [1, 0], false⟩, by decide, by decide⟩, by decide⟩
example := (C87_remove_exact (noShm 100) ⟨100, [], by decide, rfl⟩ 1228).2 (.inr (by intro i g h; cases h))

/-- `C87_removable_partial`. -/
example : ∃ v t u, createKey (noShm 100) 9 4 5 = .ok (v, t) ∧ removeKey t 9 = .ok u := by
  have hr : ShmReachable (noShm 100) := ⟨100, [], by decide, rfl⟩
  obtain ⟨t, -, h, -⟩ := (C87_create_exact (noShm 100) hr 9 4 5 (by decide) (by decide) (by decide)).2 (.inr (by intro i g h; cases h))
  exact ⟨_, t, (C87_removable_partial (noShm 100) hr 9 4 (by decide) 5 _ t rfl h).elim fun u hu => ⟨u, h, hu⟩⟩

/-- `C88_store_exact`: what is stored through one view is seen through the other. -/
example : ∃ t d, twoViews.store ⟨1, 8⟩ 0 [5] = .ok t ∧ t.view ⟨0, 8⟩ = .ok d ∧ d[0]? = some 5 := by
  have hv : twoViews.view ⟨1, 8⟩ = .ok [0, 0, 7, 9, 0, 0, 0, 0] := by decide
  have hw : twoViews.view ⟨0, 8⟩ = .ok [0, 0, 7, 9, 0, 0, 0, 0] := by decide
  obtain ⟨t, ht⟩ := ((C88_access_exact twoViews ⟨1, 8⟩).2 0 [5]).1 ⟨⟨_, hv⟩, by decide⟩
  obtain ⟨d, h1, -, h3⟩ := C88_store_exact _ _ _ _ _ _ _ ht hw
  exact ⟨t, d, ht, h1, by rw [h3 0 (by decide)]; decide⟩

/-- `C88_undisturbed`, `C88_until_closed`, `C88_only_stores`: a view while others come and go. -/
example := C88_undisturbed twoViews twoViews_reachable ⟨1, 8⟩ [0, 0, 7, 9, 0, 0, 0, 0] (by decide) (.close ⟨0, 8⟩)
  (fun v h => by cases h; decide) (fun _ _ _ h => by cases h)
example := C88_until_closed twoViews twoViews_reachable ⟨1, 8⟩ [0, 0, 7, 9, 0, 0, 0, 0] (by decide) [.close ⟨0, 8⟩, .store ⟨1, 8⟩ 0 [1]]
  (fun v h => by simp at h; subst h; decide)
example := C88_only_stores twoViews twoViews_reachable ⟨1, 8⟩ [0, 0, 7, 9, 0, 0, 0, 0] (by decide) [.close ⟨0, 8⟩, .create 3 4 5]
  (fun v h => by simp at h; subst h; decide) (by simp)

/-- `C88_close`. -/
example := C88_close twoViews ⟨1, 8⟩ [0, 0, 7, 9, 0, 0, 0, 0] (by decide)

/-- `C88_close_twice_partial`. -/
example := C88_close_twice_partial twoViews twoViews_reachable ⟨0, 8⟩ ⟨1, 8⟩ [0, 0, 7, 9, 0, 0, 0, 0] [] (by decide) (by decide)

/-! ## The server's start -/

/-- The directories of a site, and nothing in them. -/
def caseDisk : FS := ⟨[([ascii "home"], .dir), ([ascii "home", ascii "bbs"], .dir), ([ascii "serverlet"], .dir)]⟩

theorem caseDisk_users : caseDisk.lookup [ascii "serverlet"] (ascii "../home/bbs/.PASSWDS") = .ok [ascii "home", ascii "bbs", ascii ".PASSWDS"] := by
  decide

theorem caseDisk_boards : caseDisk.lookup [ascii "serverlet"] (ascii "../home/bbs/.BRD") = .ok [ascii "home", ascii "bbs", ascii ".BRD"] := by
  decide

theorem caseDisk_starts : ∃ st, startServer asciiCodec [ascii "serverlet"] caseDisk = .ok st :=
  C66_partial asciiCodec _ _
    (by rintro ⟨l, h, hd⟩; rw [caseDisk_users] at h; cases h; exact absurd hd (by decide))
    (by rintro ⟨l, h, hd⟩; rw [caseDisk_boards] at h; cases h; exact absurd hd (by decide))

/-- `C66_partial`, `C66_no_file`: no files at all. -/
example : ∃ st, startServer asciiCodec [ascii "serverlet"] caseDisk = .ok st ∧ ∀ sign r t, serve sign st r ≠ .ok (.accessToken t) := by
  obtain ⟨st, h⟩ := caseDisk_starts
  exact ⟨st, h, fun sign r t => C66_no_file asciiCodec _ _ _ st h caseDisk_users (by decide) sign r t⟩

/-- `C65_partial`: the disk is as it was. -/
example : ∃ st, ∀ sign r, answers sign st [.disk caseDisk, .request r] = [serve sign st r] := by
  obtain ⟨st, h⟩ := caseDisk_starts
  exact ⟨st, fun sign r => (C65_partial asciiCodec _ sign caseDisk caseDisk st r h (fun _ h => h) (fun _ h => h)).2⟩

end Verif
