import Verif.Props.Paths
/-!
# C19: exactly which ids stay inside
-/

namespace Verif
open Spec

/-- How deep one is after the steps `cs` when one starts at depth `d`; `none` if a step led above the start. -/
def Spec.depthOf : Nat → List Bytes → Option Nat
  | d, [] => some d
  | d, c :: cs =>
    if c = [] ∨ c = ascii "." then depthOf d cs
    else if c = ascii ".." then (if d = 0 then none else depthOf (d - 1) cs)
    else depthOf (d + 1) cs

theorem depthOf_some {b : Path} {cs : List Bytes} : ∀ {d k : Nat} {e : Path}, depthOf d cs = some k → e.length = d →
    ∃ e', cs.foldl Path.enter (b ++ e) = b ++ e' ∧ e'.length = k := by
  induction cs with
  | nil =>
    intro d k e h he
    exact ⟨e, rfl, by rw [he]; exact Option.some.inj h⟩
  | cons c cs ih =>
    intro d k e h he
    rw [depthOf] at h
    rw [List.foldl_cons]
    have e1 : (b ++ e).enter c = if c = [] ∨ c = ascii "." then b ++ e else if c = ascii ".." then (b ++ e).dropLast else b ++ e ++ [c] := rfl
    rw [e1]
    split at h
    · rename_i h1
      rw [if_pos h1]
      exact ih h he
    · rename_i h1
      rw [if_neg h1]
      split at h
      · rename_i h2
        rw [if_pos h2]
        split at h
        · cases h
        · rename_i h3
          have hne : e ≠ [] := by intro e0; subst e0; exact h3 he.symm
          rw [List.dropLast_append_of_ne_nil hne]
          exact ih h (by rw [List.length_dropLast, he])
      · rename_i h2
        rw [if_neg h2, List.append_assoc]
        exact ih h (by simp [he])

theorem enter_fresh {f : Bytes} {cs : List Bytes} (hf : f ∉ cs) : ∀ {x : Path}, f ∉ x → f ∉ cs.foldl Path.enter x := by
  induction cs with
  | nil => exact fun h => h
  | cons c cs ih =>
    intro x hx
    rw [List.mem_cons, not_or] at hf
    rw [List.foldl_cons]
    refine ih hf.2 ?_
    unfold Path.enter
    split
    · exact hx
    · split
      · exact fun h => hx (List.dropLast_subset _ h)
      · rw [List.mem_append, List.mem_singleton, not_or]
        exact ⟨hx, hf.1⟩

theorem depthOf_none {f : Bytes} {cs : List Bytes} (hf : f ∉ cs) : ∀ {d : Nat} {e : Path}, depthOf d cs = none → e.length = d →
    f ∉ e → f ∉ cs.foldl Path.enter ([f] ++ e) := by
  induction cs with
  | nil => intro d e h; cases h
  | cons c cs ih =>
    intro d e h he hfe
    rw [List.mem_cons, not_or] at hf
    rw [depthOf] at h
    rw [List.foldl_cons]
    have e1 : Path.enter ([f] ++ e) c = if c = [] ∨ c = ascii "." then [f] ++ e else if c = ascii ".." then ([f] ++ e).dropLast else [f] ++ e ++ [c] := rfl
    rw [e1]
    split at h
    · rename_i h1
      rw [if_pos h1]
      exact ih hf.2 h he hfe
    · rename_i h1
      rw [if_neg h1]
      split at h
      · rename_i h2
        rw [if_pos h2]
        split at h
        · rename_i h3
          have : e = [] := List.length_eq_zero_iff.mp (by rw [he, h3])
          subst this
          exact enter_fresh hf.2 (by simp)
        · rename_i h3
          have hne : e ≠ [] := by intro e0; subst e0; exact h3 he.symm
          rw [List.dropLast_append_of_ne_nil hne]
          exact ih hf.2 h (by rw [List.length_dropLast, he]) fun h => hfe (List.dropLast_subset _ h)
      · rename_i h2
        rw [if_neg h2, List.append_assoc]
        refine ih hf.2 h (by simp [he]) ?_
        rw [List.mem_append, List.mem_singleton, not_or]
        exact ⟨hfe, hf.1⟩

/-- There is always a name that is not in a list. -/
theorem fresh_name (cs : List Bytes) : ∃ f : Bytes, Component f ∧ f ∉ cs := by
  have hle : ∀ c ∈ cs, c.length ≤ (cs.map List.length).sum := by
    intro c hc
    induction cs with
    | nil => cases hc
    | cons a cs ih =>
      rw [List.map_cons, List.sum_cons]
      rcases List.mem_cons.mp hc with rfl | h
      · omega
      · have := ih h; omega
  refine ⟨List.replicate ((cs.map List.length).sum + 3) 97, ⟨by simp, ?_, ?_, ?_⟩, ?_⟩
  · intro h
    exact absurd (List.eq_of_mem_replicate h) (by decide)
  · intro h; exact absurd (congrArg List.length h) (by simp [ascii])
  · intro h; exact absurd (congrArg List.length h) (by simp [ascii])
  · intro h
    have := hle _ h
    simp at this
    omega

/-- **C19, exactly.** An id given by a caller keeps every path below the home directory, whatever that directory is, iff no step of the
path leads above the place where it started and the path does not end there. `q` is the path for the empty home directory. -/
theorem C19_exact (o : Obj) (q : Bytes) (hq : o.path [] = .ok q) :
    (∀ (cwd : Path) (home p : Bytes), o.path home = .ok p → Below (homeDir cwd home) (resolve cwd p)) ↔
      ∃ k, depthOf 0 (splitByte slash q) = some (k + 1) := by
  have ho : o.owner ≠ some [] := by
    intro e
    cases o <;> simp only [Obj.owner, Option.some.injEq, reduceCtorEq] at e <;> subst e <;> cases hq
  obtain ⟨r0, hp0, hs0⟩ := o.path_eq [] ho
  rw [hq] at hp0
  have := Res.ok.inj hp0
  subst this
  have hd : depthOf 0 (splitByte slash ([] ++ slash :: r0)) = depthOf 0 o.pieces := by
    rw [← hs0]; simp [splitByte, depthOf]
  rw [hd]
  have hres : ∀ (cwd : Path) (home p : Bytes), o.path home = .ok p → resolve cwd p = o.pieces.foldl Path.enter (homeDir cwd home) := by
    intro cwd home p hp
    obtain ⟨rest, hp', hs⟩ := o.path_eq home ho
    rw [hp] at hp'
    have := Res.ok.inj hp'
    subst this
    unfold homeDir
    by_cases hh : home = []
    · subst hh
      rw [if_pos rfl, List.nil_append]
      unfold resolve
      simp [splitByte, pathStart, Path.enter, hs]
    · rw [if_neg hh, resolve_under hh, hs]
  constructor
  · intro h
    obtain ⟨f, hf, hfc⟩ := fresh_name o.pieces
    obtain ⟨rest, hp, -⟩ := o.path_eq (slash :: f) ho
    have hb := h [] _ _ hp
    have hh : homeDir [] (slash :: f) = [f] := by
      unfold homeDir
      rw [if_neg (by simp)]
      unfold resolve
      have : splitByte slash (slash :: f) = [[], f] := by simp [splitByte, hf.split]
      rw [this]
      have := foldl_enter (cs := [[], f]) (by
        intro hm
        rcases List.mem_cons.mp hm with h | h
        · exact absurd h (by decide)
        · exact hf.notDotDot (List.mem_singleton.mp h).symm) (pathStart [] (slash :: f))
      rw [this]
      have k : keeps f = true := hf.keeps
      simp [pathStart, k, show keeps [] = false by decide]
    rw [hres _ _ _ hp, hh] at hb
    obtain ⟨x, xs, e⟩ := hb
    cases hk : depthOf 0 o.pieces with
    | none =>
      have := depthOf_none hfc hk (e := []) rfl (by simp)
      rw [List.append_nil, e] at this
      exact absurd (by simp) this
    | some k =>
      obtain ⟨e', he, hl⟩ := depthOf_some (b := [f]) hk (e := []) rfl
      rw [List.append_nil, e] at he
      have := List.append_cancel_left he
      subst this
      exact ⟨xs.length, by rw [← hl]; rfl⟩
  · rintro ⟨k, hk⟩ cwd home p hp
    rw [hres cwd home p hp]
    obtain ⟨e', he, hl⟩ := depthOf_some (b := homeDir cwd home) hk (e := []) rfl
    rw [List.append_nil] at he
    cases e' with
    | nil => cases hl
    | cons x xs => exact ⟨x, xs, he⟩

/-- Two steps up from an article stay inside, four do not; and a draft whose id ends where it started is not inside. -/
example : depthOf 0 (splitByte slash (ascii "/boards/S/S/../../x")) = some 2 ∧
    depthOf 0 (splitByte slash (ascii "/boards/S/S/../../../../bbs/x")) = none ∧
    depthOf 0 (splitByte slash (ascii "/home/S/S/buf./../../../..")) = some 0 := by decide +kernel

/-- The hypothesis of `C19_exact` holds for an id with steps up. -/
example : ∃ q, (Obj.article (ascii "S") (ascii "../../x")).path [] = .ok q := ⟨_, rfl⟩

end Verif
