import Verif.Go.Path
import Verif.Go.File
/-!
# A file system

Regular files and directories, no links, no permissions, no I/O errors. Environment model (kernel and package `os`),
not code of `/repo`; see DESIGN.md section 1. Error texts are those of the errno, without the path that Go adds.
-/

namespace Verif

inductive Node where
  | file (content : Bytes)
  | dir
  deriving DecidableEq, Repr

/-- Newest entry first; the root directory always exists. -/
structure FS where
  entries : List (Path × Node)
  deriving DecidableEq, Repr

namespace FS

/-- What is at a location. -/
def get (fs : FS) (p : Path) : Option Node := if p = [] then some .dir else fs.entries.lookup p

def set (fs : FS) (p : Path) (n : Node) : FS := ⟨(p, n) :: fs.entries⟩

def del (fs : FS) (p : Path) : FS := ⟨fs.entries.filter (fun e => e.1 ≠ p)⟩

/-- Walk a path string's components; every component passed through must be a directory. -/
def walk (fs : FS) (cur : Path) : List Bytes → Res Path
  | [] => .ok cur
  | c :: cs => match fs.get cur with
    | none => .err "no such file or directory"
    | some (.file _) => .err "not a directory"
    | some .dir => walk fs (cur.enter c) cs

/-- The kernel's lookup of a path string: location of the last component, which need not exist. -/
def lookup (fs : FS) (cwd : Path) (p : Bytes) : Res Path :=
  if p = [] then .err "no such file or directory"
  else if 0 ∈ p then .err "invalid argument"
  else fs.walk (pathStart cwd p) (splitByte slash p)

/-- `os.Stat(p)`: does it succeed? -/
def statOk (fs : FS) (cwd : Path) (p : Bytes) : Bool :=
  match fs.lookup cwd p with
  | .ok l => (fs.get l).isSome
  | _ => false

/-- `ioutil.ReadFile(p)`, or `os.Open` followed by `ioutil.ReadAll`. -/
def readFile (fs : FS) (cwd : Path) (p : Bytes) : Res Bytes := do
  let l ← fs.lookup cwd p
  match fs.get l with
  | none => .err "no such file or directory"
  | some .dir => .err "is a directory"
  | some (.file d) => .ok d

/-- `os.OpenFile(p, O_WRONLY|O_CREATE)`: the location opened and its current content. -/
def openCreate (fs : FS) (cwd : Path) (p : Bytes) : Res (Path × Bytes) := do
  let l ← fs.lookup cwd p
  match fs.get l with
  | none => .ok (l, [])
  | some .dir => .err "is a directory"
  | some (.file d) => .ok (l, d)

/-- `ioutil.WriteFile(p, data)`: `O_WRONLY|O_CREATE|O_TRUNC`, then write. -/
def writeFile (fs : FS) (cwd : Path) (p data : Bytes) : Res FS := do
  let (l, _) ← fs.openCreate cwd p
  .ok (fs.set l (.file data))

/-- `os.OpenFile(p, O_WRONLY|O_CREATE)` and one write at offset 0, without truncation. -/
def overwrite (fs : FS) (cwd : Path) (p data : Bytes) : Res FS := do
  let (l, d) ← fs.openCreate cwd p
  .ok (fs.set l (.file (writeAt d 0 data)))

/-- `os.OpenFile(p, O_APPEND|O_CREATE|O_WRONLY)` and one write. -/
def appendCreate (fs : FS) (cwd : Path) (p data : Bytes) : Res FS := do
  let (l, d) ← fs.openCreate cwd p
  .ok (fs.set l (.file (d ++ data)))

/-- `os.OpenFile(p, O_APPEND|O_WRONLY)` and one write. -/
def append (fs : FS) (cwd : Path) (p data : Bytes) : Res FS := do
  let l ← fs.lookup cwd p
  match fs.get l with
  | none => .err "no such file or directory"
  | some .dir => .err "is a directory"
  | some (.file d) => .ok (fs.set l (.file (d ++ data)))

/-- `os.OpenFile(p, O_WRONLY|O_CREATE|O_EXCL)`: creates an empty file. -/
def createExcl (fs : FS) (cwd : Path) (p : Bytes) : Res FS := do
  let l ← fs.lookup cwd p
  match fs.get l with
  | none => .ok (fs.set l (.file []))
  | some _ => .err "file exists"

/-- Is there anything below the directory `p`? -/
def hasChild (fs : FS) (p : Path) : Bool :=
  fs.entries.any (fun e => decide (p.length < e.1.length) && decide (e.1.take p.length = p))

/-- `os.Remove(p)`: unlinks a file or removes an empty directory. -/
def remove (fs : FS) (cwd : Path) (p : Bytes) : Res FS := do
  let l ← fs.lookup cwd p
  match fs.get l with
  | none => .err "no such file or directory"
  | some (.file _) => .ok (fs.del l)
  | some .dir => if l = [] then .err "device or resource busy"
                 else if fs.hasChild l then .err "directory not empty" else .ok (fs.del l)

/-! ## Lemmas -/

theorem get_set {fs : FS} {p q : Path} {n : Node} (hp : p ≠ []) :
    (fs.set p n).get q = if q = p then some n else fs.get q := by
  unfold get set
  by_cases hq : q = []
  · subst hq
    rw [if_pos rfl, if_neg (Ne.symm hp), if_pos rfl]
  · rw [if_neg hq, List.lookup_cons, if_neg hq]
    by_cases h : q = p
    · subst h; simp
    · have : (q == p) = false := by simpa using h
      simp only [this, if_neg h]

theorem lookup_cons_if {l : List (Path × Node)} {p q : Path} {n : Node} :
    ((p, n) :: l).lookup q = if q = p then some n else l.lookup q := by
  rw [List.lookup_cons]
  by_cases h : q = p
  · subst h; simp
  · have : (q == p) = false := by simpa using h
    simp only [this, if_neg h]

theorem lookup_filter {l : List (Path × Node)} {p q : Path} :
    (l.filter (fun e => e.1 ≠ p)).lookup q = if q = p then none else l.lookup q := by
  induction l with
  | nil => simp
  | cons e t ih =>
    obtain ⟨a, b⟩ := e
    rw [List.filter_cons, lookup_cons_if]
    by_cases h : a = p
    · subst h
      simp only [ne_eq, not_true_eq_false, decide_false, Bool.false_eq_true, if_false]
      simp only [ne_eq] at ih
      rw [ih]
      by_cases h2 : q = a
      · simp [h2]
      · simp [h2]
    · simp only [ne_eq, h, not_false_eq_true, decide_true, if_true]
      simp only [ne_eq] at ih
      rw [lookup_cons_if, ih]
      by_cases h2 : q = a
      · subst h2; simp [h]
      · simp [h2]

theorem get_del {fs : FS} {p q : Path} (hp : p ≠ []) :
    (fs.del p).get q = if q = p then none else fs.get q := by
  unfold get del
  by_cases hq : q = []
  · subst hq
    rw [if_pos rfl, if_neg (Ne.symm hp), if_pos rfl]
  · rw [if_neg hq, if_neg hq]
    exact lookup_filter

/-- A successful walk ends where lexical resolution says. -/
theorem walk_eq {fs : FS} {cur l : Path} {cs : List Bytes} (h : fs.walk cur cs = .ok l) :
    l = cs.foldl Path.enter cur := by
  induction cs generalizing cur with
  | nil => exact (Res.ok.inj h).symm
  | cons c cs ih =>
    simp only [walk] at h
    split at h
    · cases h
    · cases h
    · exact ih h

/-- A successful lookup ends where lexical resolution says. -/
theorem lookup_eq {fs : FS} {cwd l : Path} {p : Bytes} (h : fs.lookup cwd p = .ok l) : l = resolve cwd p := by
  unfold lookup at h
  split at h
  · cases h
  · split at h
    · cases h
    · exact walk_eq h

theorem walk_append {fs : FS} {cur : Path} (as bs : List Bytes) :
    fs.walk cur (as ++ bs) = fs.walk cur as >>= fun l => fs.walk l bs := by
  induction as generalizing cur with
  | nil => rfl
  | cons c cs ih =>
    simp only [List.cons_append, walk]
    split
    · rfl
    · rfl
    · exact ih

end FS

end Verif
