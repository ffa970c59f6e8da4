import Verif.Props.Paths
import Verif.Spec.Store
/-!
# Lemmas about the file system
-/

namespace Verif
open Spec

namespace FS

/-- A successful walk succeeds in every file system that has (at least) the same directories. -/
theorem walk_mono {fs fs' : FS} (h : ∀ q, fs.get q = some .dir → fs'.get q = some .dir) {cur l : Path}
    {cs : List Bytes} (hw : fs.walk cur cs = .ok l) : fs'.walk cur cs = .ok l := by
  induction cs generalizing cur with
  | nil => exact hw
  | cons c cs ih =>
    simp only [walk] at hw ⊢
    split at hw
    · cases hw
    · cases hw
    · rename_i hd
      rw [h _ hd]
      exact ih hw

theorem lookup_mono {fs fs' : FS} (h : ∀ q, fs.get q = some .dir → fs'.get q = some .dir) {cwd l : Path} {p : Bytes}
    (hl : fs.lookup cwd p = .ok l) : fs'.lookup cwd p = .ok l := by
  unfold lookup at hl ⊢
  split at hl
  · cases hl
  · rename_i h1
    rw [if_neg h1]
    split at hl
    · cases hl
    · rename_i h2
      rw [if_neg h2]
      exact walk_mono h hl

theorem lookup_child {fs : FS} {cwd L : Path} {p c : Bytes} (hp : fs.lookup cwd p = .ok L)
    (hd : fs.get L = some .dir) (hc : Component c) (h0 : 0 ∉ c) :
    fs.lookup cwd (p ++ slash :: c) = .ok (L ++ [c]) := by
  unfold lookup at hp ⊢
  split at hp
  · cases hp
  · rename_i h1
    split at hp
    · cases hp
    · rename_i h2
      rw [if_neg (by simp), if_neg, splitByte_sep, pathStart_append h1, walk_append, hp, hc.split]
      · simp only [Res.ok_bind, walk, hd]
        have h3 : ¬ (c = [] ∨ c = [dot]) := by
          rintro (e | e)
          · exact hc.nonempty e
          · exact hc.notDot (by rw [e]; decide)
        have h4 : c ≠ [dot, dot] := fun e => hc.notDotDot (by rw [e]; decide)
        simp [Path.enter, h3, h4]
      · have h5 : (0 : UInt8) ≠ slash := by decide
        simp [h2, h0, h5]

/-- Looking up a name in a directory needs the directory. -/
theorem lookup_parent {fs : FS} {cwd l : Path} {p c : Bytes} (hne : p ≠ []) (h : fs.lookup cwd (p ++ slash :: c) = .ok l) :
    ∃ L, fs.lookup cwd p = .ok L ∧ fs.get L = some .dir := by
  unfold lookup at h ⊢
  split at h
  · cases h
  · split at h
    · cases h
    · rename_i h0
      rw [splitByte_sep, pathStart_append hne, walk_append] at h
      obtain ⟨L, h1, h2⟩ := Res.bind_eq_ok.mp h
      refine ⟨L, ?_, ?_⟩
      · rw [if_neg hne, if_neg, h1]
        intro hm
        exact h0 (List.mem_append_left _ hm)
      · cases hs : splitByte slash c with
        | nil => exact absurd hs (splitByte_ne_nil _ _)
        | cons x xs =>
          rw [hs] at h2
          simp only [walk] at h2
          cases hg : fs.get L with
          | none => rw [hg] at h2; cases h2
          | some n =>
            cases n with
            | dir => rfl
            | file d => rw [hg] at h2; cases h2

/-- Putting a file where there is no directory keeps every directory. -/
theorem set_file_dirs {fs : FS} {l : Path} {d : Bytes} (hl : fs.get l ≠ some .dir) :
    ∀ q, fs.get q = some .dir → (fs.set l (.file d)).get q = some .dir := by
  intro q hq
  have hne : l ≠ [] := by intro e; subst e; exact hl (by simp [get])
  rw [get_set hne, if_neg (by intro e; subst e; exact hl hq)]
  exact hq

theorem del_file_dirs {fs : FS} {l : Path} (hl : fs.get l ≠ some .dir) :
    ∀ q, fs.get q = some .dir → (fs.del l).get q = some .dir := by
  intro q hq
  have hne : l ≠ [] := by intro e; subst e; exact hl (by simp [get])
  rw [get_del hne, if_neg (by intro e; subst e; exact hl hq)]
  exact hq

theorem ne_root {fs : FS} {l : Path} (hl : fs.get l ≠ some .dir) : l ≠ [] := by
  intro e; subst e; exact hl (by simp [get])

theorem openCreate_ok {fs : FS} {cwd l : Path} {p d : Bytes} (h : fs.openCreate cwd p = .ok (l, d)) :
    fs.lookup cwd p = .ok l ∧ fs.get l ≠ some .dir ∧ d = (fileAt fs l).getD [] := by
  unfold openCreate at h
  obtain ⟨l', h1, h2⟩ := Res.bind_eq_ok.mp h
  unfold fileAt
  split at h2
  · rename_i hg
    have := Res.ok.inj h2
    injection this with a b
    subst a; subst b
    rw [hg]
    exact ⟨h1, by simp, rfl⟩
  · cases h2
  · rename_i hg
    have := Res.ok.inj h2
    injection this with a b
    subst a; subst b
    rw [hg]
    exact ⟨h1, by simp, rfl⟩

theorem openCreate_of {fs : FS} {cwd l : Path} {p : Bytes} (h : fs.lookup cwd p = .ok l)
    (hg : fs.get l ≠ some .dir) : fs.openCreate cwd p = .ok (l, (fileAt fs l).getD []) := by
  unfold openCreate fileAt
  rw [h, Res.ok_bind]
  cases hn : fs.get l with
  | none => rfl
  | some n =>
    cases n with
    | dir => exact absurd hn hg
    | file d => rfl

/-- Reading the file just put in place. -/
theorem readFile_set {fs : FS} {cwd l : Path} {p d : Bytes} (h : fs.lookup cwd p = .ok l)
    (hg : fs.get l ≠ some .dir) : (fs.set l (.file d)).readFile cwd p = .ok d := by
  unfold readFile
  rw [lookup_mono (set_file_dirs hg) h, Res.ok_bind, get_set (ne_root hg), if_pos rfl]

theorem readFile_of {fs : FS} {cwd l : Path} {p : Bytes} (h : fs.lookup cwd p = .ok l) :
    fs.readFile cwd p = match fs.get l with
      | none => .err "no such file or directory"
      | some .dir => .err "is a directory"
      | some (.file d) => .ok d := by
  unfold readFile
  rw [h, Res.ok_bind]
  cases fs.get l with
  | none => rfl
  | some n => cases n <;> rfl

theorem readFile_ok {fs : FS} {cwd : Path} {p d : Bytes} (h : fs.readFile cwd p = .ok d) :
    ∃ l, fs.lookup cwd p = .ok l ∧ fs.get l = some (.file d) := by
  unfold readFile at h
  obtain ⟨l, h1, h2⟩ := Res.bind_eq_ok.mp h
  refine ⟨l, h1, ?_⟩
  split at h2
  · cases h2
  · cases h2
  · rename_i hg
    rw [hg, Res.ok.inj h2]

end FS

end Verif
