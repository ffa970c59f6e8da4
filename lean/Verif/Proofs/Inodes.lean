import Verif.Spec.Inodes
import Verif.Proofs.FS
import Verif.Props.Script
/-!
# Places and numbers
-/

namespace Verif
open Spec

/-! ## File systems that show the same -/

namespace FS

theorem alike_walk {a b : FS} (h : Alike a b) (cs : List Bytes) : ∀ cur, a.walk cur cs = b.walk cur cs := by
  induction cs with
  | nil => intro cur; rfl
  | cons x cs ih =>
    intro cur
    simp only [walk, h cur]
    cases b.get cur with
    | none => rfl
    | some n => cases n <;> simp only [ih]

theorem alike_lookup {a b : FS} (h : Alike a b) (cwd : Path) (p : Bytes) : a.lookup cwd p = b.lookup cwd p := by
  unfold lookup
  rw [alike_walk h]

theorem alike_statOk {a b : FS} (h : Alike a b) (cwd : Path) (p : Bytes) : a.statOk cwd p = b.statOk cwd p := by
  unfold statOk
  rw [alike_lookup h]
  cases b.lookup cwd p <;> simp only [h _]

theorem alike_openCreate {a b : FS} (h : Alike a b) (cwd : Path) (p : Bytes) : a.openCreate cwd p = b.openCreate cwd p := by
  unfold openCreate
  rw [alike_lookup h]
  cases b.lookup cwd p <;> simp only [Res.ok_bind, h _] <;> rfl

theorem alike_opened {a b : FS} (h : Alike a b) (cwd : Path) (p : Bytes) (w : Bool) : Job.opened a cwd p w = Job.opened b cwd p w := by
  unfold Job.opened
  rw [alike_lookup h]
  cases b.lookup cwd p <;> simp only [Res.ok_bind, h _] <;> rfl

theorem lookup_isSome {l : List (Path × Node)} {q : Path} : (l.lookup q).isSome = true ↔ ∃ e ∈ l, e.1 = q := by
  induction l with
  | nil => simp
  | cons e t ih =>
    obtain ⟨a, b⟩ := e
    rw [lookup_cons_if]
    by_cases hq : q = a
    · subst hq; simp
    · rw [if_neg hq, ih]
      constructor
      · rintro ⟨e, he, h⟩; exact ⟨e, List.mem_cons_of_mem _ he, h⟩
      · rintro ⟨e, he, h⟩
        rcases List.mem_cons.mp he with rfl | he
        · exact absurd h.symm hq
        · exact ⟨e, he, h⟩

theorem hasChild_iff {fs : FS} {p : Path} : fs.hasChild p = true ↔ ∃ q, p.length < q.length ∧ q.take p.length = p ∧ (fs.get q).isSome = true := by
  unfold hasChild
  rw [List.any_eq_true]
  constructor
  · rintro ⟨e, he, h⟩
    simp only [Bool.and_eq_true, decide_eq_true_eq] at h
    refine ⟨e.1, h.1, h.2, ?_⟩
    unfold get
    split
    · rfl
    · exact lookup_isSome.mpr ⟨e, he, rfl⟩
  · rintro ⟨q, h1, h2, h3⟩
    unfold get at h3
    rw [if_neg (by rintro rfl; simp at h1)] at h3
    obtain ⟨e, he, rfl⟩ := lookup_isSome.mp h3
    exact ⟨e, he, by simp [h1, h2]⟩

theorem alike_hasChild {a b : FS} (h : Alike a b) (p : Path) : a.hasChild p = b.hasChild p := by
  rw [Bool.eq_iff_iff, hasChild_iff, hasChild_iff]
  simp only [h _]

end FS

/-! ## Numbers -/

namespace Disk

theorem shown_get (d : Disk) (l : Path) : d.shown.get l = if l = [] then some .dir else (d.names.lookup l).map fun
    | none => .dir
    | some i => .file (d.content i) := by
  unfold shown FS.get
  split
  · rfl
  · generalize d.names = ns
    induction ns with
    | nil => rfl
    | cons e t ih =>
      obtain ⟨a, x⟩ := e
      simp only [List.map_cons]
      rw [List.lookup_cons, List.lookup_cons]
      cases l == a with
      | true => rfl
      | false => exact ih

theorem number_some {d : Disk} {l : Path} {i : Nat} : d.number l = some i ↔ d.names.lookup l = some (some i) := by
  unfold number
  split
  · rename_i j h; rw [h]; simp
  · rename_i h
    constructor
    · intro e; cases e
    · intro e; exact absurd e (h i)

theorem number_none {d : Disk} (hw : Numbered d) {l : Path} (h : ∀ x, d.shown.get l ≠ some (.file x)) : d.number l = none := by
  cases hn : d.number l with
  | none => rfl
  | some i =>
    have h1 := number_some.mp hn
    have hl : l ≠ [] := by rintro rfl; rw [hw.root] at h1; cases h1
    have := shown_get d l
    rw [if_neg hl, h1] at this
    exact absurd this (h _)

theorem number_file {d : Disk} {l : Path} {x : Bytes} (h : d.shown.get l = some (.file x)) : ∃ i, d.number l = some i ∧ d.content i = x := by
  rw [shown_get] at h
  split at h
  · cases h
  · unfold number
    cases hn : d.names.lookup l with
    | none => rw [hn] at h; cases h
    | some y =>
      cases y with
      | none => rw [hn] at h; cases h
      | some i =>
        rw [hn] at h
        refine ⟨i, rfl, ?_⟩
        simp only [Option.map_some] at h
        cases h
        rfl

theorem get_number {d : Disk} (hw : Numbered d) {l : Path} {i : Nat} (h : d.number l = some i) : d.shown.get l = some (.file (d.content i)) := by
  have h1 := number_some.mp h
  have hl : l ≠ [] := by rintro rfl; rw [hw.root] at h1; cases h1
  rw [shown_get, if_neg hl, h1]
  rfl

theorem create_lookup (d : Disk) (l q : Path) : (d.create l).names.lookup q = if q = l then some (some d.next) else d.names.lookup q := by
  show ((l, some d.next) :: d.names).lookup q = _
  rw [List.lookup_cons]
  by_cases h : q = l
  · subst h; simp
  · have : (q == l) = false := by simpa using h
    simp only [this, if_neg h]

theorem create_number (d : Disk) (l q : Path) : (d.create l).number q = if q = l then some d.next else d.number q := by
  unfold number
  rw [create_lookup]
  by_cases h : q = l <;> simp only [h, if_true, if_false]

theorem not_root {d : Disk} {l : Path} (hl : d.shown.get l = none) : l ≠ [] := by
  rintro rfl
  rw [shown_get] at hl
  simp at hl

theorem create_numbered {d : Disk} (hw : Numbered d) {l : Path} (hr : l ≠ []) : Numbered (d.create l) := by
  refine ⟨?_, ?_, ?_⟩
  · intro q i h
    rw [create_number] at h
    show i < d.next + 1
    split at h
    · cases h; omega
    · have := hw.low _ _ h; omega
  · intro q q' i h h'
    rw [create_number] at h h'
    split at h <;> split at h'
    · rename_i e e'; rw [e, e']
    · cases h; have := hw.low _ _ h'; omega
    · cases h'; have := hw.low _ _ h; omega
    · exact hw.one _ _ _ h h'
  · rw [create_lookup, if_neg (Ne.symm hr)]
    exact hw.root

theorem create_alike {fs : FS} {d : Disk} (hw : Numbered d) (h : Alike fs d.shown) {l : Path} (hr : l ≠ []) :
    Alike (fs.set l (.file [])) (d.create l).shown := by
  intro q
  rw [FS.get_set hr, shown_get, create_lookup, h q, shown_get]
  by_cases e : q = l
  · subst e
    rw [if_pos rfl, if_neg hr, if_pos rfl]
    simp [create]
  · rw [if_neg e, if_neg e]
    split
    · rfl
    · cases hn : d.names.lookup q with
      | none => rfl
      | some y =>
        cases y with
        | none => rfl
        | some i =>
          have := hw.low q i (number_some.mpr hn)
          simp only [Option.map_some, create]
          rw [if_neg (by omega)]

theorem write_numbered {d : Disk} (hw : Numbered d) (i : Nat) (x : Bytes) : Numbered (d.write i x) := ⟨hw.low, hw.one, hw.root⟩

theorem write_alike {fs : FS} {d : Disk} (hw : Numbered d) (h : Alike fs d.shown) {l : Path} {i : Nat} (hl : d.number l = some i) (x : Bytes) :
    Alike (fs.set l (.file x)) (d.write i x).shown := by
  intro q
  have h1 := number_some.mp hl
  have hr : l ≠ [] := by rintro rfl; rw [hw.root] at h1; cases h1
  rw [FS.get_set hr, shown_get]
  show _ = if q = [] then _ else (d.names.lookup q).map _
  by_cases e : q = l
  · subst e
    rw [if_pos rfl, if_neg hr, h1]
    simp [write]
  · rw [if_neg e, h q, shown_get]
    split
    · rfl
    · cases hn : d.names.lookup q with
      | none => rfl
      | some y =>
        cases y with
        | none => rfl
        | some j =>
          have : j ≠ i := by
            rintro rfl
            exact e (hw.one _ _ _ (number_some.mpr hn) hl)
          simp only [Option.map_some, write, if_neg this]

theorem unname_lookup (d : Disk) (l q : Path) : (d.unname l).names.lookup q = if q = l then none else d.names.lookup q := by
  unfold unname
  simp only
  generalize d.names = ns
  induction ns with
  | nil => simp
  | cons e t ih =>
    obtain ⟨a, x⟩ := e
    rw [List.filter_cons]
    by_cases h : a = l
    · subst h
      simp only [ne_eq, not_true_eq_false, decide_false, Bool.false_eq_true, if_false]
      simp only [ne_eq] at ih
      rw [ih, List.lookup_cons]
      by_cases h2 : q = a
      · simp [h2]
      · have : (q == a) = false := by simpa using h2
        simp only [this, if_neg h2]
    · simp only [ne_eq, h, not_false_eq_true, decide_true, if_true]
      simp only [ne_eq] at ih
      rw [List.lookup_cons, List.lookup_cons, ih]
      by_cases h2 : q = a
      · subst h2; simp [h]
      · have : (q == a) = false := by simpa using h2
        simp only [this]

theorem unname_number (d : Disk) (l q : Path) : (d.unname l).number q = if q = l then none else d.number q := by
  unfold number
  rw [unname_lookup]
  by_cases h : q = l <;> simp only [h, if_true, if_false]

theorem unname_numbered {d : Disk} (hw : Numbered d) (l : Path) : Numbered (d.unname l) := by
  refine ⟨?_, ?_, ?_⟩
  · intro q i h
    rw [unname_number] at h
    split at h
    · cases h
    · exact hw.low _ _ h
  · intro q q' i h h'
    rw [unname_number] at h h'
    split at h
    · cases h
    · split at h'
      · cases h'
      · exact hw.one _ _ _ h h'
  · rw [unname_lookup]
    split
    · rfl
    · exact hw.root

theorem unname_alike {fs : FS} {d : Disk} (h : Alike fs d.shown) {l : Path} (hr : l ≠ []) : Alike (fs.del l) (d.unname l).shown := by
  intro q
  rw [FS.get_del hr, shown_get, unname_lookup, h q, shown_get]
  by_cases e : q = l
  · subst e; simp [hr]
  · rw [if_neg e, if_neg e]; rfl

end Disk

/-! ## Jobs -/

/-- A job reads and writes only the file it has just opened. -/
def Plain : Job → Prop
  | .done _ => True
  | .stat _ k => ∀ b, Plain (k b) ∧ uses (k b) = none
  | .openRead _ k => ∀ r, Plain (k r) ∧ ∀ l, uses (k r) = some l → r = .ok l
  | .openWrite _ k => ∀ r, Plain (k r) ∧ ∀ l, uses (k r) = some l → r = .ok l
  | .openMake _ k => ∀ r, Plain (k r) ∧ ∀ l, uses (k r) = some l → r = .ok l
  | .openTrunc _ k => ∀ r, Plain (k r) ∧ ∀ l, uses (k r) = some l → r = .ok l
  | .openExcl _ k => ∀ b, Plain (k b) ∧ uses (k b) = none
  | .read _ _ _ _ k => ∀ r, Plain (k r) ∧ uses (k r) = none
  | .append _ _ k => Plain k ∧ uses k = none
  | .put _ _ k => Plain k ∧ uses k = none
  | .unlink _ k => ∀ r, Plain (k r) ∧ uses (k r) = none

/-- `fd` is the number of what is at `l`. -/
def Grips (d : Disk) (fd : Option Nat) (l : Path) : Prop := (∃ i, d.number l = some i ∧ fd = some i) ∨ (d.shown.get l = some .dir ∧ fd = none)

theorem grips_opened {d : Disk} (hw : Numbered d) {cwd l : Path} {p : Bytes} {w : Bool} (h : Job.opened d.shown cwd p w = .ok l) :
    Grips d (d.number l) l := by
  unfold Job.opened at h
  obtain ⟨l', h1, h2⟩ := Res.bind_eq_ok.mp h
  split at h2
  · cases h2
  · rename_i hg
    split at h2
    · cases h2
    · cases h2
      exact Or.inr ⟨hg, Disk.number_none hw (fun x e => by rw [hg] at e; cases e)⟩
  · rename_i x hg
    cases h2
    obtain ⟨i, hi, _⟩ := Disk.number_file hg
    exact Or.inl ⟨i, hi, hi⟩

theorem grips_create {d : Disk} (hw : Numbered d) {l l' : Path} (hl : d.shown.get l = none) {fd : Option Nat} (h : Grips d fd l') :
    Grips (d.create l) fd l' := by
  have hne : l' ≠ l := by
    rintro rfl
    rcases h with ⟨i, h1, _⟩ | ⟨h1, _⟩
    · rw [Disk.get_number hw h1] at hl; cases hl
    · rw [h1] at hl; cases hl
  rcases h with ⟨i, h1, h2⟩ | ⟨h1, h2⟩
  · refine Or.inl ⟨i, ?_, h2⟩
    rw [Disk.create_number, if_neg hne, h1]
  · refine Or.inr ⟨?_, h2⟩
    rw [Disk.shown_get] at h1 ⊢
    rw [Disk.create_lookup, if_neg hne]
    split
    · rfl
    · rename_i hr
      rw [if_neg hr] at h1
      cases hn : d.names.lookup l' with
      | none => rw [hn] at h1; cases h1
      | some y =>
        cases y with
        | none => rfl
        | some j => rw [hn] at h1; cases h1

theorem grips_write {d : Disk} {i : Nat} {x : Bytes} {l' : Path} {fd : Option Nat} (h : Grips d fd l') : Grips (d.write i x) fd l' := by
  rcases h with ⟨j, h1, h2⟩ | ⟨h1, h2⟩
  · exact Or.inl ⟨j, h1, h2⟩
  · refine Or.inr ⟨?_, h2⟩
    rw [Disk.shown_get] at h1 ⊢
    show (if l' = [] then _ else (d.names.lookup l').map _) = _
    split
    · rfl
    · rename_i hr
      rw [if_neg hr] at h1
      cases hn : d.names.lookup l' with
      | none => rw [hn] at h1; cases h1
      | some y =>
        cases y with
        | none => rfl
        | some j => rw [hn] at h1; cases h1

theorem grips_unname {d : Disk} {l l' : Path} {fd : Option Nat} (h : Grips d fd l') (hne : l' ≠ l) : Grips (d.unname l) fd l' := by
  rcases h with ⟨j, h1, h2⟩ | ⟨h1, h2⟩
  · exact Or.inl ⟨j, by rw [Disk.unname_number, if_neg hne, h1], h2⟩
  · refine Or.inr ⟨?_, h2⟩
    rw [Disk.shown_get] at h1 ⊢
    rw [Disk.unname_lookup, if_neg hne]
    exact h1

/-- What one system call does in the two models. -/
theorem job_mirror {cwd : Path} {fs : FS} {d : Disk} (n : Nat) {fd : Option Nat} {j : Job} (hw : Numbered d) (ha : Alike fs d.shown)
    (hj : Plain j) (hu : ∀ l, uses j = some l → Grips d fd l) :
    (j.step cwd fs n).2 = (d.step cwd n fd j).2.2 ∧ Alike (j.step cwd fs n).1 (d.step cwd n fd j).1.shown ∧
    Numbered (d.step cwd n fd j).1 ∧ Plain (j.step cwd fs n).2 ∧
    (∀ l, uses (j.step cwd fs n).2 = some l → Grips (d.step cwd n fd j).1 (d.step cwd n fd j).2.1 l) ∧
    ∀ fd' l, Grips d fd' l → ¬ Pulls cwd fs j l → Grips (d.step cwd n fd j).1 fd' l := by
  cases j with
  | done r => exact ⟨by first | rfl | trivial, ha, hw, hj, fun l h => (by cases h), fun _ _ h _ => h⟩
  | stat p k =>
    simp only [Job.step, Disk.step, FS.alike_statOk ha]
    exact ⟨by first | rfl | trivial, ha, hw, (hj _).1, fun l h => (by rw [(hj _).2] at h; cases h), fun _ _ h _ => h⟩
  | openRead p k =>
    simp only [Job.step, Disk.step, FS.alike_opened ha]
    cases ho : Job.opened d.shown cwd p false with
    | ok l =>
      refine ⟨by first | rfl | trivial, ha, hw, (hj _).1, ?_, fun _ _ h _ => h⟩
      intro l' h'
      cases (hj _).2 l' h'
      exact grips_opened hw ho
    | err e => exact ⟨rfl, ha, hw, (hj _).1, fun l h => (by cases (hj _).2 l h), fun _ _ h _ => h⟩
    | panic => exact ⟨rfl, ha, hw, (hj _).1, fun l h => (by cases (hj _).2 l h), fun _ _ h _ => h⟩
    | diverge => exact ⟨rfl, ha, hw, (hj _).1, fun l h => (by cases (hj _).2 l h), fun _ _ h _ => h⟩
  | openWrite p k =>
    simp only [Job.step, Disk.step, FS.alike_opened ha]
    cases ho : Job.opened d.shown cwd p true with
    | ok l =>
      refine ⟨by first | rfl | trivial, ha, hw, (hj _).1, ?_, fun _ _ h _ => h⟩
      intro l' h'
      cases (hj _).2 l' h'
      exact grips_opened hw ho
    | err e => exact ⟨rfl, ha, hw, (hj _).1, fun l h => (by cases (hj _).2 l h), fun _ _ h _ => h⟩
    | panic => exact ⟨rfl, ha, hw, (hj _).1, fun l h => (by cases (hj _).2 l h), fun _ _ h _ => h⟩
    | diverge => exact ⟨rfl, ha, hw, (hj _).1, fun l h => (by cases (hj _).2 l h), fun _ _ h _ => h⟩
  | openMake p k =>
    simp only [Job.step, Disk.step, FS.alike_openCreate ha]
    cases ho : d.shown.openCreate cwd p with
    | ok lx =>
      obtain ⟨l, x⟩ := lx
      have hl := FS.openCreate_ok ho
      simp only
      rw [ha l]
      cases hg : d.shown.get l with
      | none =>
        have hn : d.number l = none := Disk.number_none hw (fun x e => by rw [hg] at e; cases e)
        simp only [hn, Option.isNone_none, if_true]
        refine ⟨by first | rfl | trivial, Disk.create_alike hw ha (Disk.not_root hg), Disk.create_numbered hw (Disk.not_root hg), (hj _).1, ?_, fun _ _ h _ => grips_create hw hg h⟩
        intro l' h'
        cases (hj _).2 l' h'
        exact Or.inl ⟨_, by rw [Disk.create_number, if_pos rfl], rfl⟩
      | some nd =>
        cases nd with
        | dir => exact absurd hg hl.2.1
        | file y =>
          obtain ⟨i, hi, _⟩ := Disk.number_file hg
          simp only [hi, Option.isNone_some, Bool.false_eq_true, if_false]
          refine ⟨by first | rfl | trivial, ha, hw, (hj _).1, ?_, fun _ _ h _ => h⟩
          intro l' h'
          cases (hj _).2 l' h'
          exact Or.inl ⟨i, hi, rfl⟩
    | err e => exact ⟨rfl, ha, hw, (hj _).1, fun l h => (by cases (hj _).2 l h), fun _ _ h _ => h⟩
    | panic => exact ⟨rfl, ha, hw, (hj _).1, fun l h => (by cases (hj _).2 l h), fun _ _ h _ => h⟩
    | diverge => exact ⟨rfl, ha, hw, (hj _).1, fun l h => (by cases (hj _).2 l h), fun _ _ h _ => h⟩
  | openTrunc p k =>
    simp only [Job.step, Disk.step, FS.alike_openCreate ha]
    cases ho : d.shown.openCreate cwd p with
    | ok lx =>
      obtain ⟨l, x⟩ := lx
      have hl := FS.openCreate_ok ho
      simp only
      cases hg : d.shown.get l with
      | none =>
        have hn : d.number l = none := Disk.number_none hw (fun x e => by rw [hg] at e; cases e)
        simp only [hn]
        refine ⟨by first | rfl | trivial, Disk.create_alike hw ha (Disk.not_root hg), Disk.create_numbered hw (Disk.not_root hg), (hj _).1, ?_, fun _ _ h _ => grips_create hw hg h⟩
        intro l' h'
        cases (hj _).2 l' h'
        exact Or.inl ⟨_, by rw [Disk.create_number, if_pos rfl], rfl⟩
      | some nd =>
        cases nd with
        | dir => exact absurd hg hl.2.1
        | file y =>
          obtain ⟨i, hi, _⟩ := Disk.number_file hg
          simp only [hi]
          refine ⟨by first | rfl | trivial, Disk.write_alike hw ha hi _, Disk.write_numbered hw _ _, (hj _).1, ?_, fun _ _ h _ => grips_write h⟩
          intro l' h'
          cases (hj _).2 l' h'
          exact grips_write (Or.inl ⟨i, hi, rfl⟩)
    | err e => exact ⟨rfl, ha, hw, (hj _).1, fun l h => (by cases (hj _).2 l h), fun _ _ h _ => h⟩
    | panic => exact ⟨rfl, ha, hw, (hj _).1, fun l h => (by cases (hj _).2 l h), fun _ _ h _ => h⟩
    | diverge => exact ⟨rfl, ha, hw, (hj _).1, fun l h => (by cases (hj _).2 l h), fun _ _ h _ => h⟩
  | openExcl p k =>
    simp only [Job.step, Disk.step, FS.createExcl, FS.alike_lookup ha]
    have no : ∀ (b : Bool) (l : Path), uses (k b) = some l → False := fun b l h => by rw [(hj b).2] at h; cases h
    cases ho : d.shown.lookup cwd p with
    | ok l =>
      simp only [Res.ok_bind, ha l]
      cases hg : d.shown.get l with
      | none =>
        simp only [Option.isNone_none, if_true]
        exact ⟨by first | rfl | trivial, Disk.create_alike hw ha (Disk.not_root hg), Disk.create_numbered hw (Disk.not_root hg), (hj _).1, fun l h => (no _ l h).elim,
          fun _ _ h _ => grips_create hw hg h⟩
      | some nd =>
        simp only [Option.isNone_some, Bool.false_eq_true, if_false]
        exact ⟨by first | rfl | trivial, ha, hw, (hj _).1, fun l h => (no _ l h).elim, fun _ _ h _ => h⟩
    | err e => exact ⟨by first | rfl | trivial, ha, hw, (hj _).1, fun l h => (no _ l h).elim, fun _ _ h _ => h⟩
    | panic => exact ⟨by first | rfl | trivial, ha, hw, (hj _).1, fun l h => (no _ l h).elim, fun _ _ h _ => h⟩
    | diverge => exact ⟨by first | rfl | trivial, ha, hw, (hj _).1, fun l h => (no _ l h).elim, fun _ _ h _ => h⟩
  | read l size got pos k =>
    have no : ∀ r (l : Path), uses (k r) = some l → False := fun r l h => by rw [(hj r).2] at h; cases h
    rcases hu l rfl with ⟨i, h1, rfl⟩ | ⟨h1, rfl⟩
    · have hg := Disk.get_number hw h1
      simp only [Job.step, Disk.step, ha l, hg]
      split
      · refine ⟨by first | rfl | trivial, ha, hw, hj, ?_, fun _ _ h _ => h⟩
        intro l' h'
        cases h'
        exact Or.inl ⟨i, h1, rfl⟩
      · exact ⟨by first | rfl | trivial, ha, hw, (hj _).1, fun l h => (no _ l h).elim, fun _ _ h _ => h⟩
    · simp only [Job.step, Disk.step, ha l, h1]
      split
      · exact ⟨by first | rfl | trivial, ha, hw, (hj _).1, fun l h => (no _ l h).elim, fun _ _ h _ => h⟩
      · refine ⟨by first | rfl | trivial, ha, hw, hj, ?_, fun _ _ h _ => h⟩
        intro l' h'
        cases h'
        exact Or.inr ⟨h1, rfl⟩
  | append l bs k =>
    have no : ∀ (l : Path), uses k = some l → False := fun l h => by rw [hj.2] at h; cases h
    rcases hu l rfl with ⟨i, h1, rfl⟩ | ⟨h1, rfl⟩
    · have hg := Disk.get_number hw h1
      simp only [Job.step, Disk.step, ha l, hg]
      exact ⟨by first | rfl | trivial, Disk.write_alike hw ha h1 _, Disk.write_numbered hw _ _, hj.1, fun l h => (no l h).elim, fun _ _ h _ => grips_write h⟩
    · simp only [Job.step, Disk.step, ha l, h1]
      exact ⟨by first | rfl | trivial, ha, hw, hj.1, fun l h => (no l h).elim, fun _ _ h _ => h⟩
  | put l bs k =>
    have no : ∀ (l : Path), uses k = some l → False := fun l h => by rw [hj.2] at h; cases h
    rcases hu l rfl with ⟨i, h1, rfl⟩ | ⟨h1, rfl⟩
    · have hg := Disk.get_number hw h1
      simp only [Job.step, Disk.step, ha l, hg]
      exact ⟨by first | rfl | trivial, Disk.write_alike hw ha h1 _, Disk.write_numbered hw _ _, hj.1, fun l h => (no l h).elim, fun _ _ h _ => grips_write h⟩
    · simp only [Job.step, Disk.step, ha l, h1]
      exact ⟨by first | rfl | trivial, ha, hw, hj.1, fun l h => (no l h).elim, fun _ _ h _ => h⟩
  | unlink p k =>
    have no : ∀ r (l : Path), uses (k r) = some l → False := fun r l h => by rw [(hj r).2] at h; cases h
    have pulls : ∀ {fs' l}, fs.remove cwd p = .ok fs' → fs.lookup cwd p = .ok l → Pulls cwd fs (.unlink p k) l := fun a b => ⟨p, k, _, rfl, a, b⟩
    revert pulls
    simp only [Job.step, Disk.step]
    unfold FS.remove
    rw [FS.alike_lookup ha]
    cases ho : d.shown.lookup cwd p with
    | ok l =>
      simp only [Res.ok_bind, ha l, FS.alike_hasChild ha]
      cases hg : d.shown.get l with
      | none => intro _; exact ⟨by first | rfl | trivial, ha, hw, (hj _).1, fun l h => (no _ l h).elim, fun _ _ h _ => h⟩
      | some nd =>
        have gone : l ≠ [] → (∀ fs', Res.ok (fs.del l) = Res.ok fs' → Pulls cwd fs (.unlink p k) l) →
            (True ∧ Alike (fs.del l) (d.unname l).shown ∧ Numbered (d.unname l) ∧ Plain (k (.ok ())) ∧
            (∀ l', uses (k (.ok ())) = some l' → Grips (d.unname l) fd l') ∧
            ∀ fd' l', Grips d fd' l' → ¬ Pulls cwd fs (.unlink p k) l' → Grips (d.unname l) fd' l') := by
          intro hr hp
          refine ⟨trivial, Disk.unname_alike ha hr, Disk.unname_numbered hw l, (hj _).1, fun l h => (no _ l h).elim, ?_⟩
          intro fd' l' h hnp
          refine grips_unname h ?_
          rintro rfl
          exact hnp (hp _ rfl)
        cases nd with
        | file y =>
          intro hp
          simp only
          refine gone ?_ (fun fs' e => hp e rfl)
          rintro rfl
          rw [Disk.shown_get, if_pos rfl] at hg
          cases hg
        | dir =>
          simp only
          by_cases hr : l = []
          · simp only [if_pos hr]
            intro _
            exact ⟨by first | rfl | trivial, ha, hw, (hj _).1, fun l h => (no _ l h).elim, fun _ _ h _ => h⟩
          · simp only [if_neg hr]
            by_cases hc : d.shown.hasChild l = true
            · simp only [if_pos hc]
              intro _
              exact ⟨by first | rfl | trivial, ha, hw, (hj _).1, fun l h => (no _ l h).elim, fun _ _ h _ => h⟩
            · simp only [if_neg hc]
              intro hp
              exact gone hr (fun fs' e => hp e rfl)
    | err e => intro _; exact ⟨by first | rfl | trivial, ha, hw, (hj _).1, fun l h => (no _ l h).elim, fun _ _ h _ => h⟩
    | panic => intro _; exact ⟨by first | rfl | trivial, ha, hw, (hj _).1, fun l h => (no _ l h).elim, fun _ _ h _ => h⟩
    | diverge => intro _; exact ⟨by first | rfl | trivial, ha, hw, (hj _).1, fun l h => (no _ l h).elim, fun _ _ h _ => h⟩

/-! ## The jobs of the calls -/

theorem plain_stop {α : Type} {k : α → Job} (h : ∀ a, Plain (k a) ∧ uses (k a) = none) (r : Res α) :
    Plain (Job.orStop k r) ∧ uses (Job.orStop k r) = none := by
  cases r with
  | ok a => exact h a
  | _ => exact ⟨trivial, rfl⟩

theorem plain_open {k : Path → Job} (h : ∀ l, Plain (k l) ∧ uses (k l) = some l) (r : Res Path) :
    Plain (Job.orStop k r) ∧ ∀ l, uses (Job.orStop k r) = some l → r = .ok l := by
  cases r with
  | ok a => exact ⟨(h a).1, fun l hl => by rw [show Job.orStop k (.ok a) = k a from rfl, (h a).2] at hl; cases hl; rfl⟩
  | _ => exact ⟨trivial, fun l hl => by cases hl⟩

theorem plain_list {α : Type} {p : Bytes} {size : Nat} {parse : Bytes → Res α} {k : List α → Job} (h : ∀ a, Plain (k a) ∧ uses (k a) = none) :
    Plain (Job.readList p size parse k) ∧ uses (Job.readList p size parse k) = none :=
  ⟨plain_open fun _ => ⟨plain_stop fun _ => plain_stop h _, rfl⟩, rfl⟩

theorem plain_whole {p : Bytes} {k : Bytes → Job} (h : ∀ a, Plain (k a) ∧ uses (k a) = none) :
    Plain (Job.readWhole p k) ∧ uses (Job.readWhole p k) = none :=
  ⟨plain_open fun _ => ⟨plain_stop fun _ => h _, rfl⟩, rfl⟩

theorem plain_tries (db : DB) (b o d t : Bytes) (draw : Nat → Int × Fin 4096) (fuel : Nat) :
    ∀ k, Plain (Job.tryNames db b o d t draw fuel k) ∧ uses (Job.tryNames db b o d t draw fuel k) = none := by
  induction fuel with
  | zero => exact fun k => ⟨trivial, rfl⟩
  | succ fuel ih =>
    intro k
    unfold Job.tryNames
    apply plain_stop
    intro p
    refine ⟨?_, rfl⟩
    intro x
    cases x with
    | true => exact ⟨trivial, rfl⟩
    | false => exact ih _

theorem plain_start (db : DB) (c : Codec) (op : Call) : Plain (Job.start db c op) ∧ uses (Job.start db c op) = none := by
  have fin : ∀ r, Plain (.done r) ∧ uses (.done r) = none := fun r => ⟨trivial, rfl⟩
  cases op with
  | createArticle b o d t draw fuel => exact plain_tries db b o d t draw fuel 0
  | readUsers => unfold Job.start; apply plain_stop; intro p; exact plain_list fun _ => fin _
  | readBoards => unfold Job.start; apply plain_stop; intro p; exact plain_list fun _ => fin _
  | listTreasure b ds => unfold Job.start; apply plain_stop; intro p; exact plain_list fun _ => fin _
  | readArticle b f => unfold Job.start; apply plain_stop; intro p; exact plain_whole fun _ => fin _
  | readTreasure b ds f => unfold Job.start; apply plain_stop; intro p; exact plain_whole fun _ => fin _
  | readFavourites u =>
    unfold Job.start; apply plain_stop; intro p; refine ⟨?_, rfl⟩; intro x
    cases x with
    | false => exact fin _
    | true =>
      apply plain_whole; intro data; apply plain_stop; intro fav; apply plain_stop; intro bp; apply plain_list; intro br; apply plain_stop
      intro folder; exact fin _
  | listArticles b =>
    unfold Job.start; apply plain_stop; intro p; refine ⟨?_, rfl⟩; intro r
    have rest : ∀ r : Res (List FileHeader), Plain (Job.orStop (fun l => .done (.ok (.articles l))) r) ∧
        uses (Job.orStop (fun l => .done (.ok (.articles l))) r) = none := fun r => plain_stop (fun _ => fin _) r
    cases r with
    | err e => exact ⟨trivial, fun l hl => by cases hl⟩
    | ok l => exact ⟨fun r => plain_stop (fun got => rest _) r, fun l' hl => by cases hl; rfl⟩
    | panic => exact ⟨trivial, fun l hl => by cases hl⟩
    | diverge => exact ⟨trivial, fun l hl => by cases hl⟩
  | addBoard r =>
    unfold Job.start; apply plain_stop; intro p; refine ⟨?_, rfl⟩; intro x; apply plain_open; intro l; exact ⟨fin _, rfl⟩
  | addRecord b r =>
    unfold Job.start; apply plain_stop; intro p; refine ⟨?_, rfl⟩; intro x; apply plain_open; intro l; exact ⟨fin _, rfl⟩
  | writeArticle b f y =>
    unfold Job.start; apply plain_stop; intro p; refine ⟨?_, rfl⟩; intro x; apply plain_open; intro l; exact ⟨fin _, rfl⟩
  | appendArticle b f y =>
    unfold Job.start; apply plain_stop; intro p; refine ⟨?_, rfl⟩; intro x; apply plain_open; intro l; exact ⟨fin _, rfl⟩
  | writeDraft u d y =>
    unfold Job.start; apply plain_stop; intro p; refine ⟨?_, rfl⟩; intro x; apply plain_open; intro l; exact ⟨fin _, rfl⟩
  | readDraft u d =>
    unfold Job.start; apply plain_stop; intro p; refine ⟨?_, rfl⟩; intro x
    cases x with
    | false => exact fin _
    | true => exact plain_whole fun _ => fin _
  | deleteDraft u d =>
    unfold Job.start; apply plain_stop; intro p; refine ⟨?_, rfl⟩; intro r; apply plain_stop; intro _; exact fin _

/-! ## Everybody -/

/-- The two models are in the same state. -/
structure Mirror (s : House) (t : Shop) : Prop where
  numbered : Numbered t.disk
  alike : Alike s.fs t.disk.shown
  same : ∀ p, s.sessions p = t.sessions p
  plain : ∀ p j next, s.sessions p = .busy j next → Plain j
  grips : ∀ p j next l, s.sessions p = .busy j next → uses j = some l → Grips t.disk (t.fds p) l

theorem mirror_open {fs : FS} {d : Disk} (h : Numbered d) (ha : Alike fs d.shown) (script : Nat → Script) :
    Mirror (opening fs script) (openingAt d script) :=
  ⟨h, ha, fun _ => rfl, fun _ _ _ h => (by cases h), fun _ _ _ _ h => (by cases h)⟩

theorem mirror_set {s : House} {t : Shop} (h : Mirror s t) {p : Nat} {fs' : FS} {d' : Disk} {x : Session} {fd' : Option Nat}
    (hn : Numbered d') (ha : Alike fs' d'.shown) (hp : ∀ j next, x = .busy j next → Plain j ∧ ∀ l, uses j = some l → Grips d' fd' l)
    (ho : ∀ q j next l, q ≠ p → s.sessions q = .busy j next → uses j = some l → Grips d' (t.fds q) l) :
    Mirror (s.setSession fs' p x) (t.setSession d' p x fd') := by
  refine ⟨hn, ha, ?_, ?_, ?_⟩
  · intro q
    simp only [House.setSession, Shop.setSession]
    split
    · rfl
    · exact h.same q
  · intro q j next hq
    simp only [House.setSession] at hq
    split at hq
    · exact (hp j next hq).1
    · exact h.plain q j next hq
  · intro q j next l hq hl
    simp only [House.setSession] at hq
    simp only [Shop.setSession]
    split at hq
    · rename_i e
      rw [if_pos e]
      exact (hp j next hq).2 l hl
    · rename_i e
      rw [if_neg e]
      exact ho q j next l e hq hl

theorem shop_busy {db : DB} {c : Codec} {t : Shop} {p n : Nat} {j : Job} {next : Res Answer → Script} (h : t.sessions p = .busy j next)
    (hj : ∀ r, j ≠ .done r) : t.step db c p n = (t.setSession (t.disk.step db.cwd n (t.fds p) j).1 p
      (.busy (t.disk.step db.cwd n (t.fds p) j).2.2 next) (t.disk.step db.cwd n (t.fds p) j).2.1, []) := by
  unfold Shop.step
  rw [h]
  cases j with
  | done r => exact absurd rfl (hj r)
  | _ => rfl

theorem house_busy {db : DB} {c : Codec} {s : House} {p n : Nat} {j : Job} {next : Res Answer → Script} (h : s.sessions p = .busy j next)
    (hj : ∀ r, j ≠ .done r) : s.step db c p n = (s.setSession (j.step db.cwd s.fs n).1 p (.busy (j.step db.cwd s.fs n).2 next), []) := by
  unfold House.step
  rw [h]
  cases j with
  | done r => exact absurd rfl (hj r)
  | _ => rfl

theorem mirror_step {db : DB} {c : Codec} {s : House} {t : Shop} (h : Mirror s t) (p n : Nat)
    (hnp : ∀ j next l, s.sessions p = .busy j next → Pulls db.cwd s.fs j l → ∀ q j' next', q ≠ p → s.sessions q = .busy j' next' → uses j' ≠ some l) :
    Mirror (s.step db c p n).1 (t.step db c p n).1 ∧ (s.step db c p n).2 = (t.step db c p n).2 := by
  have old : ∀ q j next l, q ≠ p → s.sessions q = .busy j next → uses j = some l → Grips t.disk (t.fds q) l := fun q j next l _ => h.grips q j next l
  have hs := h.same p
  cases e : s.sessions p with
  | idle sc =>
    rw [e] at hs
    cases sc with
    | stop =>
      unfold House.step Shop.step
      rw [e, ← hs]
      exact ⟨h, rfl⟩
    | make op next =>
      unfold House.step Shop.step
      rw [e, ← hs]
      refine ⟨mirror_set h h.numbered h.alike ?_ old, rfl⟩
      intro j next' he
      cases he
      exact ⟨(plain_start db c op).1, fun l hl => by rw [(plain_start db c op).2] at hl; cases hl⟩
  | busy j next =>
    rw [e] at hs
    by_cases hd : ∃ r, j = .done r
    · obtain ⟨r, rfl⟩ := hd
      unfold House.step Shop.step
      rw [e, ← hs]
      exact ⟨mirror_set h h.numbered h.alike (fun j next he => by cases he) old, rfl⟩
    · have hd' : ∀ r, j ≠ .done r := fun r he => hd ⟨r, he⟩
      rw [house_busy e hd', shop_busy hs.symm hd']
      obtain ⟨h1, h2, h3, h4, h5, h6⟩ := job_mirror (cwd := db.cwd) n h.numbered h.alike (h.plain p j next e) (fun l => h.grips p j next l e)
      refine ⟨?_, rfl⟩
      rw [← h1]
      refine mirror_set h h3 h2 ?_ ?_
      · intro j' next' he
        cases he
        exact ⟨h4, h5⟩
      · intro q j' next' l hq hs' hl
        exact h6 _ _ (h.grips q j' next' l hs' hl) (fun hpl => hnp j next l e hpl q j' next' hq hs' hl)

theorem mirror_run {db : DB} {c : Codec} (sched : List (Nat × Nat)) : ∀ {s : House} {t : Shop}, Mirror s t → NothingPulled db c s sched →
    Mirror (s.run db c sched).1 (t.run db c sched).1 ∧ (s.run db c sched).2 = (t.run db c sched).2 := by
  induction sched with
  | nil => exact fun h _ => ⟨h, rfl⟩
  | cons e sched ih =>
    obtain ⟨p, n⟩ := e
    intro s t h hn
    obtain ⟨h1, h2⟩ := mirror_step h p n hn.1
    obtain ⟨h3, h4⟩ := ih h1 hn.2
    refine ⟨h3, ?_⟩
    show (s.step db c p n).2 ++ ((s.step db c p n).1.run db c sched).2 = (t.step db c p n).2 ++ ((t.step db c p n).1.run db c sched).2
    rw [h2, h4]

/-! ## Without races nobody removes what another one has open -/

theorem uses_touched {db : DB} {c : Codec} {op : Call} {j : Job} {D : Holding} {l : Path} (h : Sound db c op j D) (hl : uses j = some l) :
    ∃ o, touches op o ∧ l = at_ db o := by
  cases j with
  | read l' size got pos k => cases hl; obtain ⟨o, h1, h2, _⟩ := h; exact ⟨o, h1, h2⟩
  | append l' bs k => cases hl; obtain ⟨o, r, h1, h2, _⟩ := h; exact ⟨o, changes_touches h1, h2⟩
  | put l' bs k => cases hl; obtain ⟨o, r, h1, h2, _⟩ := h; exact ⟨o, changes_touches h1, h2⟩
  | _ => cases hl

theorem pair_nothing {db : DB} {fs0 : FS} {c : Codec} (sched : List (Nat × Nat)) : ∀ {s : House} {D : Holding} {i : Atomic}, Pair db fs0 c s D i →
    (∀ marks i', Atomic.Run c i marks i' → Calm i') →
    (∀ marks i', Atomic.Run c i marks i' → ∀ p op next, i'.turn p = .called op next → ∀ o, touches op o → Placed db fs0 o) →
    NothingPulled db c s sched := by
  induction sched with
  | nil => exact fun _ _ _ => trivial
  | cons e sched ih =>
    obtain ⟨p, n⟩ := e
    intro s D i h hc hp
    refine ⟨?_, ?_⟩
    · rintro j next l hs ⟨q, k, fs', rfl, hrem, hl⟩ r j' next' hr hs' hu
      have hm := h.clients p
      rw [hs] at hm
      have hm' := h.clients r
      rw [hs'] at hm'
      generalize ht : i.turn p = x at hm
      generalize ht' : i.turn r = x' at hm'
      cases hm with
      | called _ op _ hj hso =>
        cases hm' with
        | decided r' _ => cases hu
        | called _ op' _ hj' hso' =>
          obtain ⟨o, r1, r2, hch, hq, hns, _⟩ := hso
          obtain ⟨o', ho', e'⟩ := uses_touched hso' hu
          have hP := hp [] i .nil p op next ht o (changes_touches hch)
          have hP' := hp [] i .nil r op' next' ht' o' ho'
          obtain ⟨q', hq', hl'⟩ := shows_place h.holds hP
          rw [hq] at hq'
          cases hq'
          rw [hl] at hl'
          cases hl'
          cases at_inj hP hP' e'
          rcases hc [] i .nil p r op op' next next' (Ne.symm hr) ht ht' o hch ho' with ⟨h1, _⟩ | ⟨h1, _⟩
          · exact hns _ h1
          · obtain ⟨br, f, rfl⟩ := blind_article h1 ho'
            exact hns none trivial
    · obtain ⟨marks, D', i', h1, h2, h3⟩ := pair_run h [(p, n)] hc hp
      refine ih h3 (fun ms j hj => hc _ j (h1.append hj)) (fun ms j hj => hp _ j (h1.append hj))

/-! ## Files that have lost their name -/

theorem disk_plain {cwd : Path} {d : Disk} (n : Nat) {fd : Option Nat} {j : Job} (hw : Numbered d) (hj : Plain j) :
    Numbered (d.step cwd n fd j).1 ∧ Plain (d.step cwd n fd j).2.2 := by
  cases j with
  | done r => exact ⟨hw, hj⟩
  | stat p k => exact ⟨hw, (hj _).1⟩
  | openRead p k =>
    simp only [Disk.step]
    split
    · exact ⟨hw, (hj _).1⟩
    · exact ⟨hw, (hj _).1⟩
  | openWrite p k =>
    simp only [Disk.step]
    split
    · exact ⟨hw, (hj _).1⟩
    · exact ⟨hw, (hj _).1⟩
  | openMake p k =>
    simp only [Disk.step]
    split
    · rename_i l x ho
      split
      · exact ⟨hw, (hj _).1⟩
      · refine ⟨Disk.create_numbered hw ?_, (hj _).1⟩
        rintro rfl
        exact (FS.openCreate_ok ho).2.1 (by rw [Disk.shown_get, if_pos rfl])
    · exact ⟨hw, (hj _).1⟩
    · exact ⟨hw, (hj _).1⟩
    · exact ⟨hw, (hj _).1⟩
  | openTrunc p k =>
    simp only [Disk.step]
    split
    · rename_i l x ho
      split
      · exact ⟨Disk.write_numbered hw _ _, (hj _).1⟩
      · refine ⟨Disk.create_numbered hw ?_, (hj _).1⟩
        rintro rfl
        exact (FS.openCreate_ok ho).2.1 (by rw [Disk.shown_get, if_pos rfl])
    · exact ⟨hw, (hj _).1⟩
    · exact ⟨hw, (hj _).1⟩
    · exact ⟨hw, (hj _).1⟩
  | openExcl p k =>
    simp only [Disk.step]
    split
    · rename_i l ho
      split
      · rename_i hg
        exact ⟨Disk.create_numbered hw (Disk.not_root (Option.isNone_iff_eq_none.mp hg)), (hj _).1⟩
      · exact ⟨hw, (hj _).1⟩
    · exact ⟨hw, (hj _).1⟩
  | read l size got pos k =>
    simp only [Disk.step]
    split
    · split
      · exact ⟨hw, hj⟩
      · exact ⟨hw, (hj _).1⟩
    · split
      · exact ⟨hw, (hj _).1⟩
      · exact ⟨hw, hj⟩
  | append l bs k =>
    simp only [Disk.step]
    split
    · exact ⟨Disk.write_numbered hw _ _, hj.1⟩
    · exact ⟨hw, hj.1⟩
  | put l bs k =>
    simp only [Disk.step]
    split
    · exact ⟨Disk.write_numbered hw _ _, hj.1⟩
    · exact ⟨hw, hj.1⟩
  | unlink p k =>
    simp only [Disk.step]
    split
    · exact ⟨Disk.unname_numbered hw _, (hj _).1⟩
    · exact ⟨hw, (hj _).1⟩
    · exact ⟨hw, (hj _).1⟩
    · exact ⟨hw, (hj _).1⟩

/-- In good order: the disk, and what the clients do. -/
def Tidied (t : Shop) : Prop := Numbered t.disk ∧ ∀ p j next, t.sessions p = .busy j next → Plain j

theorem tidied_step {db : DB} {c : Codec} {t : Shop} (h : Tidied t) (p n : Nat) : Tidied (t.step db c p n).1 := by
  have set : ∀ {d : Disk} {x : Session} {fd : Option Nat}, Numbered d → (∀ j next, x = .busy j next → Plain j) → Tidied (t.setSession d p x fd) := by
    intro d x fd hd hx
    refine ⟨hd, fun q j next hq => ?_⟩
    simp only [Shop.setSession] at hq
    split at hq
    · exact hx j next hq
    · exact h.2 q j next hq
  cases e : t.sessions p with
  | idle sc =>
    cases sc with
    | stop => unfold Shop.step; rw [e]; exact h
    | make op next =>
      unfold Shop.step
      rw [e]
      exact set h.1 (fun j next he => by cases he; exact (plain_start db c op).1)
  | busy j next =>
    by_cases hd : ∃ r, j = .done r
    · obtain ⟨r, rfl⟩ := hd
      unfold Shop.step
      rw [e]
      exact set h.1 (fun j next he => by cases he)
    · rw [shop_busy e (fun r he => hd ⟨r, he⟩)]
      have := disk_plain (cwd := db.cwd) n (fd := t.fds p) h.1 (h.2 p j next e)
      exact set this.1 (fun j next he => by cases he; exact this.2)

theorem tidied_run {db : DB} {c : Codec} (sched : List (Nat × Nat)) : ∀ {t : Shop}, Tidied t → Tidied (t.run db c sched).1 := by
  induction sched with
  | nil => exact id
  | cons e sched ih => exact fun h => ih (tidied_step h e.1 e.2)

theorem tidied_open {d : Disk} (h : Numbered d) (script : Nat → Script) : Tidied (openingAt d script) := ⟨h, fun _ _ _ h => by cases h⟩

theorem unnamed_create {d : Disk} {i : Nat} (h : Unnamed d i) (l : Path) : Unnamed (d.create l) i ∧ (d.create l).content i = d.content i := by
  have hi := h.1
  refine ⟨⟨Nat.lt_succ_of_lt h.1, fun q e => ?_⟩, if_neg (by omega)⟩
  rw [Disk.create_number] at e
  split at e
  · cases e; omega
  · exact h.2 q e

theorem unnamed_write {d : Disk} {i k : Nat} (h : Unnamed d i) (hk : k ≠ i) (x : Bytes) : Unnamed (d.write k x) i ∧ (d.write k x).content i = d.content i :=
  ⟨⟨h.1, h.2⟩, if_neg (Ne.symm hk)⟩

theorem unnamed_unname {d : Disk} {i : Nat} (h : Unnamed d i) (l : Path) : Unnamed (d.unname l) i ∧ (d.unname l).content i = d.content i := by
  refine ⟨⟨h.1, fun q e => ?_⟩, rfl⟩
  rw [Disk.unname_number] at e
  split at e
  · cases e
  · exact h.2 q e

theorem unnamed_step {cwd : Path} {d : Disk} (n : Nat) {fd : Option Nat} {j : Job} {i : Nat} (hj : Plain j) (h : Unnamed d i)
    (hr : fd = some i → Reads j ∨ uses j = none) :
    Unnamed (d.step cwd n fd j).1 i ∧ (d.step cwd n fd j).1.content i = d.content i ∧
      ((d.step cwd n fd j).2.1 = some i → Reads (d.step cwd n fd j).2.2 ∨ uses (d.step cwd n fd j).2.2 = none) := by
  have quiet : ∀ {r : Res Path} {k : Res Path → Job}, (∀ l, uses (k r) = some l → r = .ok l) → (∀ l, r ≠ .ok l) → uses (k r) = none := by
    intro r k h1 h2
    cases e : uses (k r) with
    | none => rfl
    | some l => exact absurd (h1 l e) (h2 l)
  cases j with
  | done r => exact ⟨h, rfl, fun _ => Or.inr rfl⟩
  | stat p k => exact ⟨h, rfl, fun _ => Or.inr (hj _).2⟩
  | openRead p k =>
    simp only [Disk.step]
    split
    · exact ⟨h, rfl, fun e => absurd e (h.2 _)⟩
    · rename_i hn; exact ⟨h, rfl, fun _ => Or.inr (quiet (hj _).2 (fun l e => hn l e))⟩
  | openWrite p k =>
    simp only [Disk.step]
    split
    · exact ⟨h, rfl, fun e => absurd e (h.2 _)⟩
    · rename_i hn; exact ⟨h, rfl, fun _ => Or.inr (quiet (hj _).2 (fun l e => hn l e))⟩
  | openMake p k =>
    simp only [Disk.step]
    split
    · rename_i l x ho
      split
      · rename_i i' hi'
        exact ⟨h, rfl, fun e => absurd (hi'.trans e) (h.2 _)⟩
      · have := unnamed_create h l
        have hi := h.1
        exact ⟨this.1, this.2, fun e => absurd (Option.some.inj e) (by omega)⟩
    · exact ⟨h, rfl, fun _ => Or.inr (quiet (hj _).2 (fun l e => by cases e))⟩
    · exact ⟨h, rfl, fun _ => Or.inr (quiet (hj _).2 (fun l e => by cases e))⟩
    · exact ⟨h, rfl, fun _ => Or.inr (quiet (hj _).2 (fun l e => by cases e))⟩
  | openTrunc p k =>
    simp only [Disk.step]
    split
    · rename_i l x ho
      split
      · rename_i i' hi'
        have := unnamed_write h (k := i') (by rintro rfl; exact h.2 _ hi') []
        exact ⟨this.1, this.2, fun e => absurd (hi'.trans e) (h.2 _)⟩
      · have := unnamed_create h l
        have hi := h.1
        exact ⟨this.1, this.2, fun e => absurd (Option.some.inj e) (by omega)⟩
    · exact ⟨h, rfl, fun _ => Or.inr (quiet (hj _).2 (fun l e => by cases e))⟩
    · exact ⟨h, rfl, fun _ => Or.inr (quiet (hj _).2 (fun l e => by cases e))⟩
    · exact ⟨h, rfl, fun _ => Or.inr (quiet (hj _).2 (fun l e => by cases e))⟩
  | openExcl p k =>
    simp only [Disk.step]
    split
    · split
      · have := unnamed_create h (by assumption)
        exact ⟨this.1, this.2, fun _ => Or.inr (hj _).2⟩
      · exact ⟨h, rfl, fun _ => Or.inr (hj _).2⟩
    · exact ⟨h, rfl, fun _ => Or.inr (hj _).2⟩
  | read l size got pos k =>
    simp only [Disk.step]
    split
    · split
      · exact ⟨h, rfl, fun _ => Or.inl ⟨_, _, _, _, _, rfl⟩⟩
      · exact ⟨h, rfl, fun _ => Or.inr (hj _).2⟩
    · split
      · exact ⟨h, rfl, fun _ => Or.inr (hj _).2⟩
      · exact ⟨h, rfl, fun _ => Or.inl ⟨_, _, _, _, _, rfl⟩⟩
  | append l bs k =>
    simp only [Disk.step]
    split
    · rename_i i'
      have := unnamed_write h (k := i') (by
        rintro rfl
        rcases hr rfl with ⟨_, _, _, _, _, e⟩ | e <;> cases e) (d.content i' ++ bs)
      exact ⟨this.1, this.2, fun _ => Or.inr hj.2⟩
    · exact ⟨h, rfl, fun _ => Or.inr hj.2⟩
  | put l bs k =>
    simp only [Disk.step]
    split
    · rename_i i'
      have := unnamed_write h (k := i') (by
        rintro rfl
        rcases hr rfl with ⟨_, _, _, _, _, e⟩ | e <;> cases e) (writeAt (d.content i') 0 bs)
      exact ⟨this.1, this.2, fun _ => Or.inr hj.2⟩
    · exact ⟨h, rfl, fun _ => Or.inr hj.2⟩
  | unlink p k =>
    simp only [Disk.step]
    split
    · have := unnamed_unname h (by assumption)
      exact ⟨this.1, this.2, fun _ => Or.inr (hj _).2⟩
    · exact ⟨h, rfl, fun _ => Or.inr (hj _).2⟩
    · exact ⟨h, rfl, fun _ => Or.inr (hj _).2⟩
    · exact ⟨h, rfl, fun _ => Or.inr (hj _).2⟩

theorem removed_step {db : DB} {c : Codec} {t : Shop} {i : Nat} (h : Tidied t) (hu : Unnamed t.disk i) (ho : OnlyRead t i) (p n : Nat) :
    Unnamed (t.step db c p n).1.disk i ∧ OnlyRead (t.step db c p n).1 i ∧ (t.step db c p n).1.disk.content i = t.disk.content i := by
  have set : ∀ {d : Disk} {x : Session} {fd : Option Nat}, (∀ j next, x = .busy j next → fd = some i → Reads j ∨ uses j = none) →
      OnlyRead (t.setSession d p x fd) i := by
    intro d x fd hx q j next hq hf
    simp only [Shop.setSession] at hq hf
    split at hq
    · rename_i e
      rw [if_pos e] at hf
      exact hx j next hq hf
    · rename_i e
      rw [if_neg e] at hf
      exact ho q j next hq hf
  cases e : t.sessions p with
  | idle sc =>
    cases sc with
    | stop => unfold Shop.step; rw [e]; exact ⟨hu, ho, rfl⟩
    | make op next =>
      unfold Shop.step
      rw [e]
      exact ⟨hu, set (fun j next he _ => by cases he; exact Or.inr (plain_start db c op).2), rfl⟩
  | busy j next =>
    by_cases hd : ∃ r, j = .done r
    · obtain ⟨r, rfl⟩ := hd
      unfold Shop.step
      rw [e]
      exact ⟨hu, set (fun j next he _ => by cases he), rfl⟩
    · rw [shop_busy e (fun r he => hd ⟨r, he⟩)]
      obtain ⟨h1, h2, h3⟩ := unnamed_step (cwd := db.cwd) n (fd := t.fds p) (h.2 p j next e) hu (ho p j next e)
      exact ⟨h1, set (fun j next he hf => by cases he; exact h3 hf), h2⟩

theorem removed_run {db : DB} {c : Codec} {i : Nat} (sched : List (Nat × Nat)) : ∀ {t : Shop}, Tidied t → Unnamed t.disk i → OnlyRead t i →
    Unnamed (t.run db c sched).1.disk i ∧ OnlyRead (t.run db c sched).1 i ∧ (t.run db c sched).1.disk.content i = t.disk.content i := by
  induction sched with
  | nil => exact fun _ h1 h2 => ⟨h1, h2, rfl⟩
  | cons e sched ih =>
    intro t h hu ho
    obtain ⟨h1, h2, h3⟩ := removed_step (db := db) (c := c) h hu ho e.1 e.2
    obtain ⟨h4, h5, h6⟩ := ih (tidied_step (db := db) (c := c) h e.1 e.2) h1 h2
    exact ⟨h4, h5, h6.trans h3⟩

theorem setShop_other (t : Shop) (d : Disk) {p q : Nat} (x : Session) (fd : Option Nat) (h : q ≠ p) :
    (t.setSession d p x fd).sessions q = t.sessions q ∧ (t.setSession d p x fd).fds q = t.fds q := by
  simp [Shop.setSession, h]

theorem shop_other {db : DB} {c : Codec} {t : Shop} {p q n : Nat} (h : q ≠ p) :
    (t.step db c p n).1.sessions q = t.sessions q ∧ (t.step db c p n).1.fds q = t.fds q := by
  unfold Shop.step
  split
  · exact ⟨rfl, rfl⟩
  · exact setShop_other _ _ _ _ h
  · exact setShop_other _ _ _ _ h
  · exact setShop_other _ _ _ _ h

theorem removed_read {db : DB} {c : Codec} {i p : Nat} {l : Path} {size : Nat} {k : Res (List Bytes) → Job} {next : Res Answer → Script}
    (sched : List (Nat × Nat)) : ∀ {t : Shop} {got : List Bytes} {pos : Nat}, Tidied t → Unnamed t.disk i → OnlyRead t i →
    t.sessions p = .busy (.read l size got pos k) next → t.fds p = some i →
    (∃ got' pos', (t.run db c sched).1.sessions p = .busy (.read l size got' pos' k) next ∧
      got'.flatten ++ (t.disk.content i).drop pos' = got.flatten ++ (t.disk.content i).drop pos) ∨
    ∃ early late got', sched = early ++ late ∧ (t.run db c early).1.sessions p = .busy (k (.ok got')) next ∧
      got'.flatten = got.flatten ++ (t.disk.content i).drop pos := by
  induction sched with
  | nil => exact fun _ _ _ h _ => Or.inl ⟨_, _, h, rfl⟩
  | cons e sched ih =>
    obtain ⟨q, n⟩ := e
    intro t got pos h hu ho hs hf
    obtain ⟨h1, h2, h3⟩ := removed_step (db := db) (c := c) h hu ho q n
    have h4 := tidied_step (db := db) (c := c) h q n
    have push : ∀ {got1 : List Bytes} {pos1 : Nat}, (t.step db c q n).1.sessions p = .busy (.read l size got1 pos1 k) next →
        (t.step db c q n).1.fds p = some i →
        got1.flatten ++ (t.disk.content i).drop pos1 = got.flatten ++ (t.disk.content i).drop pos → 
        (∃ got' pos', (t.run db c ((q, n) :: sched)).1.sessions p = .busy (.read l size got' pos' k) next ∧
          got'.flatten ++ (t.disk.content i).drop pos' = got.flatten ++ (t.disk.content i).drop pos) ∨
        ∃ early late got', (q, n) :: sched = early ++ late ∧ (t.run db c early).1.sessions p = .busy (k (.ok got')) next ∧
          got'.flatten = got.flatten ++ (t.disk.content i).drop pos := by
      intro got1 pos1 a1 a2 a3
      rcases ih h4 h1 h2 a1 a2 with ⟨got', pos', b1, b2⟩ | ⟨early, late, got', b1, b2, b3⟩
      · rw [h3] at b2
        exact Or.inl ⟨got', pos', b1, b2.trans a3⟩
      · rw [h3] at b3
        exact Or.inr ⟨(q, n) :: early, late, got', by rw [b1]; rfl, b2, b3.trans a3⟩
    by_cases hq : p = q
    · subst hq
      have hb := shop_busy (db := db) (c := c) (n := n) hs (fun r e => by cases e)
      rw [hf] at hb
      simp only [Disk.step] at hb
      by_cases hp : pos < (t.disk.content i).length
      · rw [if_pos hp] at hb
        refine push (got1 := got ++ [slice (t.disk.content i) pos (pos + if size = 0 then n + 1 else size)])
          (pos1 := pos + (slice (t.disk.content i) pos (pos + if size = 0 then n + 1 else size)).length)
          (by rw [hb]; simp only [Shop.setSession, if_true]) (by rw [hb]; simp only [Shop.setSession, if_true]) ?_
        rw [List.flatten_append, List.flatten_singleton, List.append_assoc]
        congr 1
        generalize (if size = 0 then n + 1 else size) = m
        generalize t.disk.content i = d
        rw [show slice d pos (pos + m) = (d.drop pos).take m from by rw [slice, List.drop_take, Nat.add_sub_cancel_left], ← List.drop_drop]
        generalize d.drop pos = e
        rw [List.length_take]
        by_cases hm : m ≤ e.length
        · rw [Nat.min_eq_left hm, List.take_append_drop]
        · rw [Nat.min_eq_right (by omega), List.take_of_length_le (by omega), List.drop_length, List.append_nil]
      · rw [if_neg hp] at hb
        refine Or.inr ⟨[(p, n)], sched, got, rfl, ?_, ?_⟩
        · show (t.step db c p n).1.sessions p = _
          rw [hb]
          simp [Shop.setSession]
        · rw [List.drop_eq_nil_of_le (by omega), List.append_nil]
    · obtain ⟨a1, a2⟩ := shop_other (db := db) (c := c) (t := t) (p := q) (q := p) (n := n) hq
      exact push (a1.trans hs) (a2.trans hf) rfl

end Verif
