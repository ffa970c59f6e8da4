import Verif.Props.Paths
/-!
# C20, exactly: when two names mean one file
-/

namespace Verif
open Spec

namespace Spec

/-- What an object with a reserved name is: the library's own file of that name. -/
def Obj.meant : Obj → Obj
  | .mail u f => if f = ascii ".fav" then .favourite u else if f = ascii "logins.recent" then .loginRecent u
      else if ascii "buf." <+: f then .draft u (f.drop 4) else .mail u f
  | .article b f => if f = ascii ".DIR" then .articleIndex b else if f = ascii ".Name" then .boardName b else .article b f
  | .treasure b ds f => if f = ascii ".DIR" then .treasureIndex b ds else .treasure b ds f
  | o => o

end Spec

theorem meant_loc (o : Obj) : o.meant.loc = o.loc := by
  cases o
  case mail u f =>
    simp only [Obj.meant]
    split
    · next h => rw [h]; rfl
    · split
      · next h => rw [h]; rfl
      · split
        · next h =>
          obtain ⟨d, rfl⟩ := h
          rfl
        · rfl
  case article b f =>
    simp only [Obj.meant]
    split
    · next h => rw [h]; rfl
    · split
      · next h => rw [h]; rfl
      · rfl
  case treasure b ds f =>
    simp only [Obj.meant]
    split
    · next h => rw [h]; rfl
    · rfl
  all_goals rfl

theorem meant_owner (o : Obj) : o.meant.owner = o.owner := by
  cases o
  case mail | article | treasure => simp only [Obj.meant]; (repeat' split) <;> rfl
  all_goals rfl

theorem meant_free (o : Obj) : o.meant.NotReserved := by
  cases o
  case mail u f =>
    simp only [Obj.meant]
    split
    · trivial
    · split
      · trivial
      · split
        · trivial
        · next h1 h2 h3 => exact ⟨h1, h2, h3⟩
  case article b f =>
    simp only [Obj.meant]
    split
    · trivial
    · split
      · trivial
      · next h1 h2 => exact ⟨h1, h2⟩
  case treasure b ds f =>
    simp only [Obj.meant]
    split
    · trivial
    · next h => exact h
  all_goals trivial

/-- An object without a reserved name is meant itself. -/
theorem meant_self {o : Obj} (h : o.NotReserved) : o.meant = o := by
  cases o
  case mail => simp only [Obj.meant]; rw [if_neg h.1, if_neg h.2.1, if_neg h.2.2]
  case article => simp only [Obj.meant]; rw [if_neg h.1, if_neg h.2]
  case treasure => simp only [Obj.meant]; rw [if_neg h]
  all_goals rfl

theorem loc_injective_owner {o o' : Obj} (h : ∀ s, o.owner = some s → Component s) (h' : ∀ s, o'.owner = some s → Component s)
    (hr : o.NotReserved) (hr' : o'.NotReserved) (e : o.loc = o'.loc) : o = o' := by
  have d1 : ascii "home" ≠ ascii "boards" := by decide
  have d2 : ascii "home" ≠ ascii "man" := by decide
  have d3 : ascii "boards" ≠ ascii "man" := by decide
  have d4 : ascii "home" ≠ ascii ".PASSWDS" := by decide
  have d5 : ascii "home" ≠ ascii ".BRD" := by decide
  have d6 : ascii "boards" ≠ ascii ".PASSWDS" := by decide
  have d7 : ascii "boards" ≠ ascii ".BRD" := by decide
  have d8 : ascii "man" ≠ ascii ".PASSWDS" := by decide
  have d9 : ascii "man" ≠ ascii ".BRD" := by decide
  have d10 : ascii ".PASSWDS" ≠ ascii ".BRD" := by decide
  have d11 : ascii ".fav" ≠ ascii "logins.recent" := by decide
  have d12 : ∀ d, ascii ".fav" ≠ ascii "buf." ++ d := by intro d e; have := congrArg List.head? e; revert this; simp [ascii]
  have d13 : ∀ d, ascii "logins.recent" ≠ ascii "buf." ++ d := by
    intro d e; have := congrArg List.head? e; revert this; simp [ascii]
  have d14 : ascii ".DIR" ≠ ascii ".Name" := by decide
  cases o <;> cases o' <;>
    simp only [Obj.loc, List.cons_append, List.nil_append, List.append_assoc, List.cons.injEq, d1, d2, d3, d4, d5, d6,
      d7, d8, d9, d10, d1.symm, d2.symm, d3.symm, d4.symm, d5.symm, d6.symm, d7.symm, d8.symm, d9.symm, d10.symm,
      false_and, true_and] at e <;>
    first
      | rfl
      | (exact absurd e (by simp))
      | skip
  all_goals
    replace e := dir_inj (h _ rfl) (h' _ rfl) e
    obtain ⟨hu, e⟩ := e
    subst hu
  all_goals
    first
      | rfl
      | (simp only [List.cons.injEq, and_true, d11, d11.symm, d14, d14.symm] at e; done)
      | (simp only [List.cons.injEq, and_true] at e; first
          | exact absurd e (d12 _)
          | exact absurd e.symm (d12 _)
          | exact absurd e (d13 _)
          | exact absurd e.symm (d13 _)
          | (rw [List.append_cancel_left e])
          | exact absurd e hr.1
          | exact absurd e.symm hr'.1
          | exact absurd e hr.2
          | exact absurd e.symm hr'.2
          | exact absurd e hr.2.1
          | exact absurd e.symm hr'.2.1
          | (rw [e]; done)
          | exact absurd ⟨_, e.symm⟩ hr.2.2
          | exact absurd ⟨_, e⟩ hr'.2.2)
      | (obtain ⟨e1, e2⟩ := List.append_inj' e rfl
         simp only [List.cons.injEq, and_true] at e2
         first
          | (rw [e1, e2]; done)
          | (rw [e1]; done)
          | exact absurd e2 hr
          | exact absurd e2.symm hr')

/-- **C20**, exactly: two objects named by single path components are one file exactly if they mean the same object. -/
theorem C20_exact (cwd : Path) (home : Bytes) (o o' : Obj) (p p' : Bytes) (h : ∀ s ∈ o.names, Component s)
    (h' : ∀ s ∈ o'.names, Component s) (hp : o.path home = .ok p) (hp' : o'.path home = .ok p') :
    resolve cwd p = resolve cwd p' ↔ o.meant = o'.meant := by
  have hl : ∀ {o : Obj} {p : Bytes}, (∀ s ∈ o.names, Component s) → o.path home = .ok p → resolve cwd p = homeDir cwd home ++ o.loc := by
    intro o p h hp
    obtain ⟨q, hq, e⟩ := C18_location cwd home o h
    rw [hp] at hq
    rw [Res.ok.inj hq, e]
  have ho : ∀ {o : Obj}, (∀ s ∈ o.names, Component s) → ∀ s, o.meant.owner = some s → Component s := by
    intro o h s hs
    rw [meant_owner] at hs
    apply h
    cases o <;> simp_all [Obj.owner, Obj.names]
  rw [hl h hp, hl h' hp']
  constructor
  · intro e
    refine loc_injective_owner (ho h) (ho h') (meant_free o) (meant_free o') ?_
    rw [meant_loc, meant_loc, List.append_cancel_left e]
  · intro e
    rw [← meant_loc o, ← meant_loc o', e]

/-! ## Examples -/

/-- The mail `buf.3` of a user is their draft 3; the article `.DIR` is the list of the board. -/
example : (Obj.mail (ascii "SYSOP") (ascii "buf.3")).meant = (Obj.draft (ascii "SYSOP") (ascii "3")).meant ∧
    (Obj.article (ascii "Test") (ascii ".DIR")).meant = (Obj.articleIndex (ascii "Test")).meant ∧
    (Obj.article (ascii "Test") (ascii "M.1.A")).meant ≠ (Obj.article (ascii "Test") (ascii "M.2.A")).meant := by decide

example : (∀ s ∈ (Obj.mail (ascii "SYSOP") (ascii "buf.3")).names, Component s) ∧ ∃ p, (Obj.mail (ascii "SYSOP") (ascii "buf.3")).path (ascii "/bbs") = .ok p := by
  refine ⟨?_, _, rfl⟩
  intro s hs
  simp only [Obj.names, List.mem_cons, List.not_mem_nil, or_false] at hs
  rcases hs with rfl | rfl <;> exact ⟨by decide, by decide, by decide, by decide⟩

end Verif
