import Verif.Props.ToolShow
import Verif.Props.ToolWork
import Verif.Props.ToolMain
import Verif.Props.FullDisk
import Verif.Props.Factory
import Verif.Props.CLayout
/-!
# Cases: the tool, full disks, new articles, the C records

Each theorem named is applied to something that meets its hypotheses.
-/

namespace Verif
open Spec

/-! ## The tool -/

def caseOptions : ToolOptions := ⟨ascii "pttbbs", ascii "/bbs"⟩

theorem case_open : openDB sampleFS [] caseOptions = .ok sampleDB :=
  (C74_exact _ _ _ _).mpr ⟨rfl, ⟨[ascii "bbs"], by decide +kernel, by decide +kernel⟩, by decide⟩

def caseDraw : Nat → Int × Fin 4096 := fun _ => (1600000000, 0xABC)

/-- `C123_boards`, `C123_users`: there are no such files. -/
example := (C123_boards asciiCodec [] sampleFS caseOptions [ascii "show_board_list"] caseDraw 1 sampleDB rfl case_open).2 "no such file or directory"
  (by decide +kernel)
example := (C123_users asciiCodec [] sampleFS caseOptions [ascii "show_user_list"] caseDraw 1 sampleDB rfl case_open).2 "no such file or directory"
  (by decide +kernel)

/-- `C123_articles`, `C123_comments`: the boards cannot be read. -/
example := (C123_articles asciiCodec [] sampleFS caseOptions [ascii "show_user_article_list", ascii "--user_id", ascii "pichu"] caseDraw 1 sampleDB
  (ascii "pichu") rfl case_open (by unfold Given; decide +kernel)).2 "no such file or directory" (by decide +kernel)
example := C123_comments asciiCodec [] sampleFS caseOptions [ascii "show_user_comment_list", ascii "--user_id", ascii "pichu"] caseDraw 1 sampleDB
  (ascii "pichu") rfl case_open (by unfold Given; decide +kernel) "no such file or directory" (by decide +kernel)

/-- `C123_article`: an article that is not there. -/
example := (C123_article asciiCodec [] sampleFS caseOptions [ascii "show_board_article", ascii "--board", ascii "S", ascii "--filename", ascii "M.1"] caseDraw 1
  sampleDB (ascii "S") (ascii "M.1") rfl case_open (by unfold Given; decide +kernel) (by unfold Given; decide +kernel)).2 "no such file or directory" (by decide +kernel)

/-- `C123_not_opened`, `C123_unknown`. -/
example := (C123_not_opened asciiCodec [] sampleFS ⟨ascii "pttbbs", ascii "/nowhere"⟩ [ascii "show_user_list"] caseDraw 1 _ _ "no such file or directory" rfl
  (by decide +kernel)).2
example := C123_unknown asciiCodec [] sampleFS caseOptions [ascii "show"] caseDraw 1 (by decide) (by decide)

/-- `C123_whole`, `C75_read_only`: the list of boards from the command line. -/
example := C123_whole asciiCodec [] sampleFS [ascii "--bbshome=/bbs", ascii "show_board_list"] caseDraw 1 caseOptions [ascii "show_board_list"]
  ((C73_flags _ _ _).mp (by decide +kernel))

/-- `C79_reports_exact`, `C79_post`: a post. -/
def casePost : List Bytes := [ascii "add_board_article", ascii "--board", ascii "S", ascii "--owner", ascii "pichu", ascii "--date", ascii "11/16",
  ascii "--title", ascii "hi", ascii "--content", ascii "hello"]

theorem casePost_out : newLine (ascii "M.1600000000.A.ABC") ∈ (toolCommand asciiCodec [] sampleFS caseOptions casePost caseDraw 1).out := by
  decide +kernel

example := (C79_reports_exact asciiCodec [] sampleFS caseOptions casePost caseDraw 1 _ rfl).1 casePost_out
example := C79_post asciiCodec [] sampleFS caseOptions casePost caseDraw 1 _ rfl casePost_out _ rfl

/-- `C80_add_board`: the first board. -/
example := C80_add_board asciiCodec [] sampleFS caseOptions [ascii "add_board", ascii "--board_id", ascii "Test", ascii "--title", ascii "hello"] caseDraw 1
  sampleDB rfl case_open
  (fun p d hp hd => by
    rw [show getBoardPath sampleDB.home = .ok (ascii "/bbs/.BRD") from by decide +kernel] at hp
    rw [← Res.ok.inj hp, show sampleFS.readFile sampleDB.cwd (ascii "/bbs/.BRD") = .err "no such file or directory" from by decide +kernel] at hd
    cases hd)
  _ rfl
  (fun p e => by
    rw [show (toolCommand asciiCodec [] sampleFS caseOptions [ascii "add_board", ascii "--board_id", ascii "Test", ascii "--title", ascii "hello"] caseDraw 1).out = []
      from by decide +kernel]
    exact List.not_mem_nil)

/-- `C80_complaint`: no such place. -/
example := C80_complaint asciiCodec [] sampleFS ⟨ascii "pttbbs", ascii "/nowhere"⟩
  [ascii "add_board", ascii "--board_id", ascii "Test", ascii "--title", ascii "hello"] caseDraw 1 rfl "addboard: error" "no such file or directory"
  (by decide +kernel)

/-- `C74_home_partial`. -/
example := C74_home_partial sampleFS [] caseOptions sampleDB (by decide) case_open

/-- `C77_crash_command`, `C77_crash_exact`: a list of boards does not crash it. -/
example : ¬ Crashes asciiCodec [] sampleFS caseOptions [ascii "show_board_list"] := fun h =>
  absurd ((C77_crash_command asciiCodec [] sampleFS caseOptions [ascii "show_board_list"] caseDraw 1 (by decide)).2 h) (by decide +kernel)
example := C77_crash_exact asciiCodec [] sampleFS [ascii "--bbshome=/bbs", ascii "show_board_list"] caseDraw 1 (by decide)

/-! ## Full disks -/

def caseSave : Call := .writeDraft (ascii "Ab") (ascii "1") (ascii "new")

theorem caseSave_noClaim : NoClaim caseSave := fun _ _ _ _ _ _ h => by cases h

theorem caseSave_ok : (caseSave.exec sampleDB asciiCodec draftFS).2 = .ok .done := rfl

theorem caseSave_full : ∃ D, caseSave.inRoom sampleDB asciiCodec draftFS [(0, some 0), (0, some 2)] = (D, some (.err "no space left on device")) :=
  ⟨_, rfl⟩

/-- `C127_answers`, `C127_exact`, `C127_own_file_partial`: two bytes of three find room. -/
example : ∃ D, FullLeft sampleDB asciiCodec draftFS caseSave D ∧ ∃ p l, target sampleDB caseSave = .ok p ∧ draftFS.lookup sampleDB.cwd p = .ok l ∧
    SameExcept draftFS D [l] := by
  obtain ⟨D, h⟩ := caseSave_full
  have := C127_answers _ _ _ _ caseSave_noClaim _ _ _ h
  obtain ⟨p, l, h1, h2, h3, -⟩ := C127_own_file_partial _ _ _ _ caseSave_noClaim _ caseSave_ok _ _ _ h
  exact ⟨D, (C127_exact _ _ _ _ caseSave_noClaim _ caseSave_ok D).1 ⟨_, D, _, h, fun _ => rfl⟩, p, l, h1, h2, h3⟩

/-- `C127_success`: all of it finds room. -/
example : ∃ D, caseSave.inRoom sampleDB asciiCodec draftFS [(0, some 0), (0, some 3)] = (D, some (.ok .done)) ∧
    Same D (caseSave.exec sampleDB asciiCodec draftFS).1 := by
  have h : caseSave.inRoom sampleDB asciiCodec draftFS [(0, some 0), (0, some 3)] =
      ((caseSave.inRoom sampleDB asciiCodec draftFS [(0, some 0), (0, some 3)]).1, some (.ok .done)) :=
    Prod.ext rfl (show (caseSave.inRoom sampleDB asciiCodec draftFS [(0, some 0), (0, some 3)]).2 = _ from rfl)
  exact ⟨_, h, (C127_success _ _ _ _ caseSave_noClaim _ _ _ h).2⟩

/-- `C127_create_hangs`, `C127_create`. -/
example := C127_create_hangs sampleDB asciiCodec sampleFS (ascii "S") [] [] [] (by decide) caseDraw 1 [(0, some 0)] (by decide)
example := C127_create sampleDB asciiCodec sampleFS (ascii "S") [] [] [] caseDraw 1 [(0, some 0)] _ _
  (C127_create_hangs sampleDB asciiCodec sampleFS (ascii "S") [] [] [] (by decide) caseDraw 1 [(0, some 0)] (by decide))

/-! ## New articles -/

/-- `C71_created`: the first article of a board. -/
example : ∃ r fs', sampleDB.newArticleWithMap sampleFS (fun k => if k = ascii "board_id" then some (.str (ascii "S")) else sampleArgs k) 1600000000
      (fun _ => 0xABC) 1 = .ok (r, fs') ∧ sampleDB.readBoardArticleFile fs' (ascii "S") r.filename ≠ .panic := by
  have hs : (match sampleDB.newArticleWithMap sampleFS (fun k => if k = ascii "board_id" then some (.str (ascii "S")) else sampleArgs k) 1600000000
      (fun _ => 0xABC) 1 with | .ok _ => true | _ => false) = true := by decide +kernel
  split at hs
  case h_1 x h =>
    obtain ⟨r, fs'⟩ := x
    obtain ⟨o, d, t, b, k, -, -, -, hb, -, -, hr, -⟩ := C71_created _ _ _ _ _ _ _ _ h
    have e : b = ascii "S" := by
      have : some (ArgVal.str (ascii "S")) = some (.str b) := hb
      injection this with this
      injection this with this
      exact this.symm
    rw [e] at hr
    exact ⟨r, fs', h, by rw [hr]; intro h; cases h⟩
  case h_2 => cases hs

/-- `C72_head_partial`. -/
example := C72_head_partial (ascii "pichu") (ascii "Test") (ascii "Re: hello") (ascii "11/16") (ascii "pichu") (ascii "Test") (ascii "Re: hello") (ascii "11/16")
  (by decide) (by decide) (by decide) (by decide) (by decide) (by decide) rfl

/-! ## The C records -/

/-- `C86_article_exact`, `C86_board_exact`, `C86_user_exact`, `C86_online_exact`. -/
example := C86_article_exact asciiCodec (List.replicate 128 255) List.length_replicate
example := C86_board_exact asciiCodec (List.replicate 256 255) List.length_replicate
example := C86_user_exact asciiCodec (List.replicate 512 255) List.length_replicate
example := C86_online_exact asciiCodec (List.replicate 3484 255) List.length_replicate

/-- `C86_article_partial`, `C86_board_partial`, `C86_user_partial`: records of zeros. -/
example := C86_article_partial asciiCodec (zeros 128) List.length_replicate
  (by simp only [← trimNul_cstr]; decide +kernel) (by decide +kernel) (by decide +kernel)
example := C86_board_partial asciiCodec (zeros 256) List.length_replicate
  (by simp only [← trimNul_cstr]; decide +kernel) (by simp only [← trimNul_cstr]; decide +kernel) (by decide +kernel)
example := C86_user_partial asciiCodec (zeros 512) List.length_replicate (by decide +kernel) (by decide +kernel)

end Verif
