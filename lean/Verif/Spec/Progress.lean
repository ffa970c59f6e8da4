import Verif.Model.Script
/-!
# How long a call may take while others are at work
-/

namespace Verif.Spec
open Verif

/-- The files that a call reads to their end. -/
def Reading (db : DB) : Call → Bytes → Prop
  | .readUsers, p => getPasswdsPath db.home = .ok p
  | .readFavourites u, p => getUserFavoritePath db.home u = .ok p ∨ getBoardPath db.home = .ok p
  | .readBoards, p => getBoardPath db.home = .ok p
  | .listArticles b, p => getBoardArticlesDirectoryPath db.home b = .ok p
  | .listTreasure b ds, p => getBoardTreasuresDirectoryPath db.home b ds = .ok p
  | .readArticle b f, p => getBoardArticleFilePath db.home b f = .ok p
  | .readTreasure b ds f, p => getBoardTreasureFilePath db.home b ds f = .ok p
  | .readDraft u d, p => getUserDraftPath db.home u d = .ok p
  | _, _ => False

/-- The files that a call reads record by record. -/
def ReadingList (db : DB) : Call → Bytes → Prop
  | .readUsers, p => getPasswdsPath db.home = .ok p
  | .readFavourites _, p => getBoardPath db.home = .ok p
  | .readBoards, p => getBoardPath db.home = .ok p
  | .listArticles b, p => getBoardArticlesDirectoryPath db.home b = .ok p
  | .listTreasure b ds, p => getBoardTreasuresDirectoryPath db.home b ds = .ok p
  | _, _ => False

/-- What the call reads holds at most `L` bytes, and no list that it reads is a directory. -/
def Manageable (db : DB) (L : Nat) (op : Call) (fs : FS) : Prop :=
  (∀ p, Reading db op p → ∀ d, fs.get (resolve db.cwd p) = some (.file d) → d.length ≤ L) ∧
  ∀ p, ReadingList db op p → fs.get (resolve db.cwd p) ≠ some .dir

/-- The largest number of steps of a client from a call to its answer, both included, if what it reads holds at most `L` bytes. -/
def patience (L : Nat) : Call → Nat
  | .readFavourites _ => 2 * L + 7
  | .readDraft _ _ => L + 5
  | .addBoard _ => 4
  | .addRecord _ _ => 4
  | .writeArticle _ _ _ => 4
  | .appendArticle _ _ _ => 4
  | .writeDraft _ _ _ => 4
  | .deleteDraft _ _ => 3
  | .createArticle _ _ _ _ _ fuel => fuel + 2
  | _ => L + 4

/-- How many steps of a schedule are those of client `p`. -/
def stepsOf (p : Nat) (sched : List (Nat × Nat)) : Nat := (sched.filter fun x => x.1 == p).length

/-- The answer is there after a number of steps of the client that does not depend on what the others do. -/
def Bounded (db : DB) (c : Codec) (op : Call) (fs : FS) : Prop :=
  ∃ N, ∀ (s : House) (p : Nat) (next : Res Answer → Script) (sched : List (Nat × Nat)), s.fs = fs → s.sessions p = .idle (.make op next) →
    N ≤ stepsOf p sched → ∃ r, .ret p r ∈ (s.run db c sched).2

/-- No directory has the name of a list. -/
def ListsAreFiles (fs : FS) : Prop :=
  ∀ l, fs.get l = some .dir → l.getLast? ≠ some (ascii ".PASSWDS") ∧ l.getLast? ≠ some (ascii ".BRD") ∧ l.getLast? ≠ some (ascii ".DIR")

/-- A schedule without an end: where things stand at time `t`. -/
def House.at_time (db : DB) (c : Codec) (s : House) (sched : Nat → Nat × Nat) : Nat → House
  | 0 => s
  | t + 1 => ((House.at_time db c s sched t).step db c (sched t).1 (sched t).2).1

/-- Every one of the first `P` clients gets to move again and again. -/
def Fair (P : Nat) (sched : Nat → Nat × Nat) : Prop := ∀ p, p < P → ∀ t, ∃ t', t ≤ t' ∧ (sched t').1 = p

end Verif.Spec
