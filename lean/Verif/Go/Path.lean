import Verif.Go.Basic
/-!
# Path strings and their resolution

`splitByte` models `strings.Split` with a one-byte separator. `resolve` is how a file system without symbolic links
reads a path string. Environment model, not code of `/repo`; see DESIGN.md section 1.
-/

namespace Verif

/-- A location: components from the root directory. -/
abbrev Path := List Bytes

/-- `/` -/
def slash : UInt8 := 47
/-- `.` -/
def dot : UInt8 := 46

/-- `strings.Split(s, sep)` for a one-byte `sep`: always at least one piece. -/
def splitByte (b : UInt8) : Bytes → List Bytes
  | [] => [[]]
  | c :: cs =>
    if c = b then [] :: splitByte b cs
    else match splitByte b cs with
      | [] => [[c]]
      | h :: t => (c :: h) :: t

/-- One step of path resolution: empty components and `.` stay, `..` goes up, any other name goes down. -/
def Path.enter (cur : Path) (c : Bytes) : Path :=
  if c = [] ∨ c = [dot] then cur
  else if c = [dot, dot] then cur.dropLast
  else cur ++ [c]

/-- Where resolution of a path string starts. -/
def pathStart (cwd : Path) (p : Bytes) : Path := if p.head? = some slash then [] else cwd

/-- The location named by the path string `p` in a process whose working directory is `cwd`. -/
def resolve (cwd : Path) (p : Bytes) : Path := (splitByte slash p).foldl Path.enter (pathStart cwd p)

/-! ## Lemmas -/

theorem splitByte_ne_nil (b : UInt8) (s : Bytes) : splitByte b s ≠ [] := by
  cases s with
  | nil => simp [splitByte]
  | cons c cs =>
    simp only [splitByte]
    split
    · simp
    · split <;> simp

theorem splitByte_of_not_mem {b : UInt8} {s : Bytes} (h : b ∉ s) : splitByte b s = [s] := by
  induction s with
  | nil => rfl
  | cons c cs ih =>
    rw [List.mem_cons, not_or] at h
    simp only [splitByte, if_neg (Ne.symm h.1), ih h.2]

theorem splitByte_sep {b : UInt8} (x y : Bytes) : splitByte b (x ++ b :: y) = splitByte b x ++ splitByte b y := by
  induction x with
  | nil => simp [splitByte]
  | cons c cs ih =>
    simp only [List.cons_append, splitByte]
    split
    · rw [ih]; rfl
    · rw [ih]
      cases hs : splitByte b cs with
      | nil => exact absurd hs (splitByte_ne_nil b cs)
      | cons h t => rfl

/-- Pieces joined by the separator split into themselves. -/
theorem splitByte_not_mem (b : UInt8) (s : Bytes) : ∀ p ∈ splitByte b s, b ∉ p := by
  induction s with
  | nil => simp [splitByte]
  | cons c cs ih =>
    simp only [splitByte]
    split
    · intro p hp
      rcases List.mem_cons.mp hp with h | h
      · rw [h]; simp
      · exact ih p h
    · rename_i hc
      cases hs : splitByte b cs with
      | nil => exact absurd hs (splitByte_ne_nil b cs)
      | cons h t =>
        rw [hs] at ih
        intro p hp
        rcases List.mem_cons.mp hp with h' | h'
        · rw [h']
          intro hm
          rcases List.mem_cons.mp hm with e | e
          · exact hc e.symm
          · exact ih h (by simp) e
        · exact ih p (List.mem_cons_of_mem _ h')

theorem pathStart_append {cwd : Path} {p q : Bytes} (hp : p ≠ []) : pathStart cwd (p ++ q) = pathStart cwd p := by
  cases p with
  | nil => exact absurd rfl hp
  | cons c cs => rfl

/-- Resolving `home/rest` resolves `rest` starting at `home`. -/
theorem resolve_under {cwd : Path} {home rest : Bytes} (hp : home ≠ []) :
    resolve cwd (home ++ slash :: rest) = (splitByte slash rest).foldl Path.enter (resolve cwd home) := by
  unfold resolve
  rw [splitByte_sep, List.foldl_append, pathStart_append hp]

end Verif
