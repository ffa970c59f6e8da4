import Verif.Model.DB
import Verif.Spec.Paths
/-!
# What the draft and article properties talk about
-/

namespace Verif.Spec

/-- The path string names an existing directory. -/
def IsDir (fs : FS) (cwd : Path) (p : Bytes) : Prop := ∃ l, fs.lookup cwd p = .ok l ∧ fs.get l = some .dir

/-- The directory of a user. -/
def userDir (home u : Bytes) : Bytes := home ++ ascii "/home/" ++ fmtC (u.headD 0) ++ ascii "/" ++ u

/-- The directory of a board. -/
def boardDir (home b : Bytes) : Bytes := home ++ ascii "/boards/" ++ fmtC (b.headD 0) ++ ascii "/" ++ b

/-- Location of an object. -/
def at_ (db : DB) (o : Obj) : Path := homeDir db.cwd db.home ++ o.loc

/-- Nothing but the listed locations differs. -/
def SameExcept (fs fs' : FS) (ls : List Path) : Prop := ∀ q, q ∉ ls → fs'.get q = fs.get q

/-! ## Drafts as a map -/

inductive DraftOp where
  | write (u d content : Bytes)
  | delete (u d : Bytes)
  | read (u d : Bytes)
  deriving DecidableEq

/-- User and slot an operation is about. -/
def DraftOp.key : DraftOp → Bytes × Bytes
  | .write u d _ => (u, d)
  | .delete u d => (u, d)
  | .read u d => (u, d)

/-- The library's operation: new file system, and result (`some` content for reads). -/
def DraftOp.exec (db : DB) (fs : FS) : DraftOp → FS × Res (Option Bytes)
  | .write u d x => match db.writeUserDraft fs u d x with
    | .ok fs' => (fs', .ok none)
    | .err e => (fs, .err e)
    | .panic => (fs, .panic)
    | .diverge => (fs, .diverge)
  | .delete u d => match db.deleteUserDraft fs u d with
    | .ok fs' => (fs', .ok none)
    | .err e => (fs, .err e)
    | .panic => (fs, .panic)
    | .diverge => (fs, .diverge)
  | .read u d => match db.getUserDraft fs u d with
    | .ok b => (fs, .ok (some b))
    | .err e => (fs, .err e)
    | .panic => (fs, .panic)
    | .diverge => (fs, .diverge)

def DraftOp.execAll (db : DB) (fs : FS) : List DraftOp → FS × List (Res (Option Bytes))
  | [] => (fs, [])
  | op :: ops =>
    let (fs', r) := op.exec db fs
    let (fs'', rs) := DraftOp.execAll db fs' ops
    (fs'', r :: rs)

/-- The intended behaviour: a map from (user, slot) to content. -/
def DraftOp.spec (m : Bytes × Bytes → Option Bytes) : DraftOp → (Bytes × Bytes → Option Bytes) × Res (Option Bytes)
  | .write u d x => (fun k => if k = (u, d) then some x else m k, .ok none)
  | .delete u d => match m (u, d) with
    | some _ => (fun k => if k = (u, d) then none else m k, .ok none)
    | none => (m, .err "no such file or directory")
  | .read u d => (m, .ok (some ((m (u, d)).getD [])))

def DraftOp.specAll (m : Bytes × Bytes → Option Bytes) : List DraftOp → (Bytes × Bytes → Option Bytes) × List (Res (Option Bytes))
  | [] => (m, [])
  | op :: ops =>
    let (m', r) := op.spec m
    let (m'', rs) := DraftOp.specAll m' ops
    (m'', r :: rs)

/-- Well-formed ids of a user who has a directory, the slot not being occupied by a directory. -/
structure GoodSlot (db : DB) (fs : FS) (u d : Bytes) : Prop where
  user : Component u
  slot : Component d
  slotNul : 0 ∉ d
  dir : IsDir fs db.cwd (userDir db.home u)
  notDir : fs.get (at_ db (.draft u d)) ≠ some .dir

/-- Content of the file at a location. -/
def fileAt (fs : FS) (l : Path) : Option Bytes :=
  match fs.get l with
  | some (.file d) => some d
  | _ => none

end Verif.Spec
