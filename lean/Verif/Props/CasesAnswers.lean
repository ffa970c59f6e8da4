import Verif.Props.Answers
import Verif.Props.Exactly
/-!
# Cases: the answers

Each theorem named is applied to something that meets its hypotheses.
-/

namespace Verif
open Spec

/-- `C106_instant_exact`, `C106_instant_partial`, `C106_writable_exact`: Taipei, and a zone of odd seconds. -/
example := C106_instant_exact (fun _ => 29166) 1605510000 (by decide) (by decide) (by decide)
example := C106_instant_partial (fun _ => 28800) 1605510000 (by decide) (by decide) (by decide) (by decide)
example := C106_writable_exact (fun _ => 28800) 253402300800 (by decide) (by decide)

/-- `C104_read_back`: a refused login. -/
example := C104_read_back (fun _ => 28800) (.grantError "password incorrect") _ rfl

def caseBoard : BoardHeader := BoardHeader.parse asciiCodec (zeros 256)

/-- `C104_boards`: a list of two. -/
example := C104_boards (fun _ => 28800) [caseBoard, caseBoard] (fun _ => (by decide : (28800 : Int).natAbs < 86400)) (fun b hb => by
  rcases List.mem_cons.mp hb with rfl | hb
  · exact boardTimes_parse _ _
  · rw [List.mem_singleton.mp hb]; exact boardTimes_parse _ _)

/-- `C105_shown_partial`: two lists that differ in a title. -/
example := C105_shown_partial (fun _ => 28800) [caseBoard] [{ caseBoard with title := ascii "PTT" }] (fun _ => (by decide : (28800 : Int).natAbs < 86400))
  (fun b hb => by rw [List.mem_singleton.mp hb]; exact boardTimes_parse _ _)
  (fun b hb => by rw [List.mem_singleton.mp hb]; exact boardTimes_parse asciiCodec (zeros 256))
  rfl

/-- `C104_loaded_boards`, `C104_record_partial`: whatever the tables. -/
example (T : Big5Tables) := C104_loaded_boards T (fun _ => 28800) (fun _ => (by decide : (28800 : Int).natAbs < 86400)) (fun _ => []) [] [zeros 256] [] [] []
example (T : Big5Tables) : ∃ j, readJson ((Response.userInfo (Userec.parse (big5Codec T) (zeros 512)).userData).body fun _ => 28800) =
      some (.obj [(ascii "data", j)]) ∧ TellsRecord (fun _ => 28800) (Userec.parse (big5Codec T) (zeros 512)) j :=
  C104_record_partial T (fun _ => 28800) (zeros 512) (fun _ => (by decide : (28800 : Int).natAbs < 86400))
    (isText_ascii _ (by
      show ∀ b ∈ cstrToString (slice (zeros 512) 4 17), b < 0x80
      decide +kernel))
    (isText_ascii _ (by
      show ∀ b ∈ cstrToString (slice (zeros 512) 84 100), b < 0x80
      decide +kernel))

/-- `C107_served_partial`, `C107_never_unauthorized`, `C107_unknown_user`, `C107_not_found`, `C107_not_implemented`, `C107_moved`, `C107_bad`. -/
example := C107_served_partial (.boards []) trivial
example := C107_never_unauthorized (fun _ => []) ⟨[], []⟩ ⟨ascii "GET", ascii "/v1/boards", [], [], []⟩ (.boards []) (by decide +kernel)
example := C107_unknown_user (fun _ => []) ⟨[], []⟩ (ascii "guest") [] [] [] (by unfold PlainSegment; decide) (by decide)
example := C107_not_found (fun _ => []) ⟨[], []⟩ ⟨ascii "GET", ascii "/v2/boards", [], [], []⟩ [ascii "v2", ascii "boards"] false (by decide)
  (by unfold PlainSegment; decide) (by decide) (.inl ⟨by decide, by decide, by decide, by decide⟩)
example := C107_not_found (fun _ => []) ⟨[], []⟩ ⟨ascii "GET", ascii "/v1/users/a/mail", [], [], []⟩ [ascii "v1", ascii "users", ascii "a", ascii "mail"] false
  (by decide) (by unfold PlainSegment; decide) (by decide) (.inr ⟨rfl, .inr (by decide), by decide, by decide, by decide⟩)
example := C107_not_implemented (fun _ => []) ⟨[], []⟩ ⟨ascii "GET", ascii "/v1/classes/7", [], [], []⟩ [ascii "7"] false rfl
  (by unfold PlainSegment; decide) (.inr (by decide)) (.inl (by decide))
example := C107_moved (fun _ => []) ⟨[], []⟩ ⟨ascii "GET", ascii "/v1//boards", [], [], []⟩ (by decide) (by decide) (by decide)
example := C107_bad (fun _ => []) ⟨[], []⟩ ⟨ascii "OPTIONS", ascii "*", [], [], []⟩ rfl

end Verif
