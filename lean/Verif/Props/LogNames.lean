import Verif.Props.LogExact
import Verif.Model.Accounts
/-!
# C150: the path that a call writes to the log is the one it names to the system
-/

namespace Verif
open Spec

/-- **C150, which path.** What a call writes to the log, if it writes anything, is the path of the first system call it makes; and each call that names a path
writes it, but for those that make an article and add a comment. -/
theorem C150_named (db : DB) (c : Codec) (op : Call) :
    (∀ p, (Job.start db c op).named = some p →
      op.log db.home = match op with
        | .createArticle .. => []
        | .appendArticle .. => []
        | _ => [ascii "path: " ++ p]) ∧
    ((Job.start db c op).named = none → op.log db.home = []) := by
  have go : ∀ (x : Res Bytes) (k : Bytes → Job), (∀ p, (k p).named = some p) →
      (∀ p, (Job.orStop k x).named = some p → (match x with | .ok p => [ascii "path: " ++ p] | _ => []) = [ascii "path: " ++ p]) ∧
      ((Job.orStop k x).named = none → (match x with | .ok p => [ascii "path: " ++ p] | _ => []) = []) := by
    intro x k hk
    cases x with
    | ok q =>
      refine ⟨fun p hp => ?_, fun hp => ?_⟩
      · have : some q = some p := (hk q).symm.trans hp
        cases this; rfl
      · exact nomatch (hk q).symm.trans hp
    | err e => exact ⟨nofun, fun _ => rfl⟩
    | panic => exact ⟨nofun, fun _ => rfl⟩
    | diverge => exact ⟨nofun, fun _ => rfl⟩
  cases op with
  | createArticle b o d t draw fuel => exact ⟨fun _ _ => rfl, fun _ => rfl⟩
  | appendArticle b f x => exact ⟨fun _ _ => rfl, fun _ => rfl⟩
  | readUsers => unfold Job.start; exact go _ _ fun _ => rfl
  | readBoards => unfold Job.start; exact go _ _ fun _ => rfl
  | addBoard r => unfold Job.start; exact go _ _ fun _ => rfl
  | _ => exact go _ _ fun _ => rfl

example : (Job.start ⟨ascii "/bbs", []⟩ ⟨id, id⟩ (.readDraft (ascii "U") (ascii "0"))).named = some (ascii "/bbs/home/U/U/buf.0") ∧
    (Call.readDraft (ascii "U") (ascii "0")).log (ascii "/bbs") = [ascii "path: /bbs/home/U/U/buf.0"] := by decide +kernel

end Verif
