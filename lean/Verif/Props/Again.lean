import Verif.Props.Articles
import Verif.Model.Api
import Verif.Proofs.Inodes
/-!
# C166: a call made again because its answer was lost
-/

namespace Verif
open Spec

/-- C166, the whole claim: a call made again after it was carried out leaves the disk as the first left it. -/
def Spec.SafeToRepeat : Prop := ∀ (db : DB) (c : Codec) (fs : FS) (op : Call),
  Alike ((op.exec db c (op.exec db c fs).1).1) ((op.exec db c fs).1)

/-- The calls that add to what there is: a board, a record of an article, a new article, or text at the end of an article. -/
def Spec.AddsMore : Call → Prop
  | .addBoard _ | .addRecord _ _ | .createArticle _ _ _ _ _ _ => True
  | .appendArticle _ _ x => x ≠ []
  | _ => False

/-! ## Writing to a file twice -/

theorem openCreate_twice {fs : FS} {cwd l : Path} {p d : Bytes} (h : fs.openCreate cwd p = .ok (l, d)) (x : Bytes) :
    l ≠ [] ∧ (fs.set l (.file x)).openCreate cwd p = .ok (l, x) := by
  obtain ⟨hl, hnd, -⟩ := FS.openCreate_ok h
  refine ⟨FS.ne_root hnd, ?_⟩
  simp only [FS.openCreate, FS.lookup_mono (FS.set_file_dirs hnd) hl, Res.ok_bind, FS.get_set (FS.ne_root hnd), if_true]

theorem set_set_same {fs : FS} {l : Path} (n : Node) (hl : l ≠ []) : Alike ((fs.set l n).set l n) (fs.set l n) := by
  intro q
  rw [FS.get_set hl]
  split
  · rename_i e; subst e; rw [FS.get_set hl, if_pos rfl]
  · rfl

theorem writeAt_twice (d x : Bytes) : writeAt (writeAt d 0 x) 0 x = writeAt d 0 x := by
  simp [writeAt, zeros]

theorem overwrite_twice {fs fs' : FS} {cwd : Path} {p x : Bytes} (h : fs.overwrite cwd p x = .ok fs') :
    ∃ fs'', fs'.overwrite cwd p x = .ok fs'' ∧ Alike fs'' fs' := by
  unfold FS.overwrite at h
  obtain ⟨⟨l, d⟩, ho, h⟩ := Res.bind_eq_ok.mp h
  have := Res.ok.inj h
  subst this
  obtain ⟨hl, h2⟩ := openCreate_twice ho (writeAt d 0 x)
  exact ⟨_, by simp only [FS.overwrite, h2, Res.ok_bind, writeAt_twice], set_set_same _ hl⟩

theorem writeFile_twice {fs fs' : FS} {cwd : Path} {p x : Bytes} (h : fs.writeFile cwd p x = .ok fs') :
    ∃ fs'', fs'.writeFile cwd p x = .ok fs'' ∧ Alike fs'' fs' := by
  unfold FS.writeFile at h
  obtain ⟨⟨l, d⟩, ho, h⟩ := Res.bind_eq_ok.mp h
  have := Res.ok.inj h
  subst this
  obtain ⟨hl, h2⟩ := openCreate_twice ho x
  exact ⟨_, by simp only [FS.writeFile, h2, Res.ok_bind], set_set_same _ hl⟩

/-- The second disk has the text at the end of one file once more than the first. -/
def Spec.OnceMore (x : Bytes) (fs fs' : FS) : Prop :=
  ∃ l d, fs.get l = some (.file (d ++ x)) ∧ fs'.get l = some (.file (d ++ x ++ x)) ∧ ∀ q, q ≠ l → fs'.get q = fs.get q

theorem onceMore_set {fs : FS} {l : Path} (hl : l ≠ []) (d x : Bytes) :
    OnceMore x (fs.set l (.file (d ++ x))) ((fs.set l (.file (d ++ x))).set l (.file (d ++ x ++ x))) :=
  ⟨l, d, by rw [FS.get_set hl, if_pos rfl], by rw [FS.get_set hl, if_pos rfl], fun q hq => by rw [FS.get_set hl, if_neg hq]⟩

theorem onceMore_same {fs fs' : FS} {x : Bytes} (h : OnceMore x fs fs') : Alike fs' fs ↔ x = [] := by
  obtain ⟨l, d, h1, h2, h3⟩ := h
  constructor
  · intro h
    have := h l
    rw [h1, h2] at this
    injection this with this
    injection this with this
    simpa using this
  · rintro rfl q
    by_cases hq : q = l
    · subst hq; rw [h1, h2]; simp
    · exact h3 q hq

theorem appendCreate_twice {fs fs' : FS} {cwd : Path} {p x : Bytes} (h : fs.appendCreate cwd p x = .ok fs') :
    ∃ fs'', fs'.appendCreate cwd p x = .ok fs'' ∧ OnceMore x fs' fs'' := by
  unfold FS.appendCreate at h
  obtain ⟨⟨l, d⟩, ho, h⟩ := Res.bind_eq_ok.mp h
  have := Res.ok.inj h
  subst this
  obtain ⟨hl, h2⟩ := openCreate_twice ho (d ++ x)
  exact ⟨_, by simp only [FS.appendCreate, h2, Res.ok_bind], onceMore_set hl d x⟩

theorem append_twice {fs fs' : FS} {cwd : Path} {p x : Bytes} (h : fs.append cwd p x = .ok fs') :
    ∃ fs'', fs'.append cwd p x = .ok fs'' ∧ OnceMore x fs' fs'' := by
  unfold FS.append at h
  obtain ⟨l, hl, h⟩ := Res.bind_eq_ok.mp h
  split at h
  · cases h
  · cases h
  · rename_i d hg
    have := Res.ok.inj h
    subst this
    have hnd : fs.get l ≠ some .dir := by rw [hg]; simp
    refine ⟨_, ?_, onceMore_set (FS.ne_root hnd) d x⟩
    simp only [FS.append, FS.lookup_mono (FS.set_file_dirs hnd) hl, Res.ok_bind, FS.get_set (FS.ne_root hnd), if_true]

/-! ## Removing a file twice -/

theorem walk_del {fs : FS} {l : Path} (hl : l ≠ []) : ∀ (cs : List Bytes) {cur q : Path}, fs.walk cur cs = .ok q →
    (fs.del l).walk cur cs = .ok q ∨ (fs.del l).walk cur cs = .err "no such file or directory"
  | [], _, _, h => .inl h
  | _ :: cs, cur, q, h => by
    unfold FS.walk at h ⊢
    rw [FS.get_del hl]
    by_cases he : cur = l
    · rw [if_pos he]; exact .inr rfl
    · rw [if_neg he]
      split at h
      · cases h
      · cases h
      · exact walk_del hl cs h

theorem lookup_del {fs : FS} {l cwd q : Path} {p : Bytes} (hl : l ≠ []) (h : fs.lookup cwd p = .ok q) :
    (fs.del l).lookup cwd p = .ok q ∨ (fs.del l).lookup cwd p = .err "no such file or directory" := by
  unfold FS.lookup at h ⊢
  split at h
  · cases h
  · rename_i h1
    rw [if_neg h1]
    split at h
    · cases h
    · rename_i h2
      rw [if_neg h2]
      exact walk_del hl _ h

theorem remove_twice {fs fs' : FS} {cwd : Path} {p : Bytes} (h : fs.remove cwd p = .ok fs') :
    fs'.remove cwd p = .err "no such file or directory" := by
  unfold FS.remove at h
  obtain ⟨l, hl, h⟩ := Res.bind_eq_ok.mp h
  have key : l ≠ [] → fs' = fs.del l → fs'.remove cwd p = .err "no such file or directory" := by
    rintro hn rfl
    unfold FS.remove
    rcases lookup_del hn hl with e | e
    · rw [e, Res.ok_bind, FS.get_del hn, if_pos rfl]
    · rw [e]; rfl
  split at h
  · cases h
  · rename_i d hg
    exact key (FS.ne_root (by rw [hg]; simp)) (Res.ok.inj h).symm
  · split at h
    · cases h
    · rename_i hn
      split at h
      · cases h
      · exact key hn (Res.ok.inj h).symm

/-! ## The calls -/

/-- A call that fails leaves the disk as it was. -/
theorem exec_failed {db : DB} {c : Codec} {fs : FS} {op : Call} (h : ∀ a, (op.exec db c fs).2 ≠ .ok a) : (op.exec db c fs).1 = fs := by
  have hw : ∀ {r : Res FS}, (∀ a, (writes fs r).2 ≠ .ok a) → (writes fs r).1 = fs := by
    intro r hr
    cases r with
    | ok fs' => exact absurd rfl (hr .done)
    | err e => rfl
    | panic => rfl
    | diverge => rfl
  cases op with
  | createArticle b o d t draw fuel =>
    simp only [Call.exec] at h ⊢
    split
    · rename_i r fs' e
      rw [e] at h
      exact absurd rfl (h (.record r))
    · rfl
    · rfl
    · rfl
  | addBoard r => exact hw h
  | addRecord b r => exact hw h
  | writeArticle b f x => exact hw h
  | appendArticle b f x => exact hw h
  | deleteDraft u d => exact hw h
  | writeDraft u d x => exact hw h
  | _ => rfl

theorem writes_ok {fs : FS} {r : Res FS} {a : Answer} (h : (writes fs r).2 = .ok a) : ∃ fs', r = .ok fs' ∧ writes fs r = (fs', .ok .done) := by
  cases r with
  | ok fs' => exact ⟨fs', rfl, rfl⟩
  | err e => cases h
  | panic => cases h
  | diverge => cases h

/-- What a call made again does after it succeeded: it answers as before and changes nothing; it finds the draft gone; it adds the same
once more; or it makes another article. -/
inductive Spec.Repeated (db : DB) (c : Codec) (fs : FS) (op : Call) (a : Answer) : FS × Res Answer → Prop
  | same {fs' : FS} (h : ¬ AddsMore op) (hd : Alike fs' fs) : Repeated db c fs op a (fs', .ok a)
  | gone (u d : Bytes) (h : op = .deleteDraft u d) : Repeated db c fs op a (fs, .err "no such file or directory")
  | more {fs' : FS} (x : Bytes) (h : AddsMore op ↔ x ≠ []) (hd : OnceMore x fs fs') : Repeated db c fs op a (fs', .ok a)
  | other {fs' : FS} (b o d t : Bytes) (draw : Nat → Int × Fin 4096) (fuel : Nat) (r : FileHeader) (l : Path) (h : op = .createArticle b o d t draw fuel)
      (hn : fs.get l = none) (hl : fs'.get l = some (.file [])) (hd : ∀ q, q ≠ l → fs'.get q = fs.get q) :
      Repeated db c fs op a (fs', .ok (.record r))
  | failed (b o d t : Bytes) (draw : Nat → Int × Fin 4096) (fuel : Nat) (r : Res Answer) (h : op = .createArticle b o d t draw fuel)
      (hr : ∀ a, r ≠ .ok a) : Repeated db c fs op a (fs, r)

/-- C166: what a call made again after a success does, for every call and every disk. -/
theorem C166_repeated (db : DB) (c : Codec) (fs : FS) (op : Call) (a : Answer) (h : (op.exec db c fs).2 = .ok a) :
    Repeated db c ((op.exec db c fs).1) op a (op.exec db c (op.exec db c fs).1) := by
  have hread : (op.exec db c fs).1 = fs → ¬ AddsMore op →
      Repeated db c ((op.exec db c fs).1) op a (op.exec db c (op.exec db c fs).1) := by
    intro e hn
    rw [e]
    have : op.exec db c fs = (fs, .ok a) := Prod.ext e h
    rw [this]
    exact .same hn (fun _ => rfl)
  cases op with
  | addBoard r =>
    simp only [Call.exec] at h ⊢
    obtain ⟨fs1, h1, h2⟩ := writes_ok h
    rw [h2] at h ⊢
    cases h
    unfold DB.addBoardRecord at h1
    obtain ⟨p, hp, h1⟩ := Res.bind_eq_ok.mp h1
    obtain ⟨fs2, h3, h4⟩ := appendCreate_twice h1
    have h5 : db.addBoardRecord c fs1 r = .ok fs2 := by simp only [DB.addBoardRecord, hp, Res.ok_bind, h3]
    rw [h5]
    exact .more _ ⟨fun _ e => (by have := BoardHeader.marshal_length c r; rw [e] at this; cases this), fun _ => trivial⟩ h4
  | addRecord b r =>
    simp only [Call.exec] at h ⊢
    obtain ⟨fs1, h1, h2⟩ := writes_ok h
    rw [h2] at h ⊢
    cases h
    unfold DB.addArticleRecord at h1
    obtain ⟨p, hp, h1⟩ := Res.bind_eq_ok.mp h1
    obtain ⟨fs2, h3, h4⟩ := appendCreate_twice h1
    have h5 : db.addArticleRecord c fs1 b r = .ok fs2 := by simp only [DB.addArticleRecord, hp, Res.ok_bind, h3]
    rw [h5]
    exact .more _ ⟨fun _ e => (by have := FileHeader.marshal_length c r; rw [e] at this; cases this), fun _ => trivial⟩ h4
  | writeArticle b f x =>
    simp only [Call.exec] at h ⊢
    obtain ⟨fs1, h1, h2⟩ := writes_ok h
    rw [h2] at h ⊢
    cases h
    unfold DB.writeBoardArticleFile at h1
    obtain ⟨p, hp, h1⟩ := Res.bind_eq_ok.mp h1
    obtain ⟨fs2, h3, h4⟩ := overwrite_twice h1
    have h5 : db.writeBoardArticleFile fs1 b f x = .ok fs2 := by simp only [DB.writeBoardArticleFile, hp, Res.ok_bind, h3]
    rw [h5]
    exact .same (fun h => h) h4
  | appendArticle b f x =>
    simp only [Call.exec] at h ⊢
    obtain ⟨fs1, h1, h2⟩ := writes_ok h
    rw [h2] at h ⊢
    cases h
    unfold DB.appendBoardArticleFile at h1
    obtain ⟨p, hp, h1⟩ := Res.bind_eq_ok.mp h1
    obtain ⟨fs2, h3, h4⟩ := append_twice h1
    have h5 : db.appendBoardArticleFile fs1 b f x = .ok fs2 := by simp only [DB.appendBoardArticleFile, hp, Res.ok_bind, h3]
    rw [h5]
    exact .more x Iff.rfl h4
  | writeDraft u d x =>
    simp only [Call.exec] at h ⊢
    obtain ⟨fs1, h1, h2⟩ := writes_ok h
    rw [h2] at h ⊢
    cases h
    unfold DB.writeUserDraft at h1
    obtain ⟨p, hp, h1⟩ := Res.bind_eq_ok.mp h1
    obtain ⟨fs2, h3, h4⟩ := writeFile_twice h1
    have h5 : db.writeUserDraft fs1 u d x = .ok fs2 := by simp only [DB.writeUserDraft, hp, Res.ok_bind, h3]
    rw [h5]
    exact .same (fun h => h) h4
  | deleteDraft u d =>
    simp only [Call.exec] at h ⊢
    obtain ⟨fs1, h1, h2⟩ := writes_ok h
    rw [h2] at h ⊢
    cases h
    unfold DB.deleteUserDraft at h1
    obtain ⟨p, hp, h1⟩ := Res.bind_eq_ok.mp h1
    have h5 : db.deleteUserDraft fs1 u d = .err "no such file or directory" := by
      simp only [DB.deleteUserDraft, hp, Res.ok_bind, remove_twice h1]
    rw [h5]
    exact .gone u d rfl
  | createArticle b o d t draw fuel =>
    generalize (Call.exec db c fs (.createArticle b o d t draw fuel)).1 = fs1
    cases hr : (Call.exec db c fs1 (.createArticle b o d t draw fuel)).2 with
    | ok a' =>
      simp only [Call.exec] at hr ⊢
      split at hr
      · rename_i r fs2 e
        simp only [DB.createArticleRecord] at e
        obtain ⟨⟨name, fs3⟩, hc, e⟩ := Res.bind_eq_ok.mp e
        have e' := Res.ok.inj e
        injection e' with e1 e2
        subst e2
        obtain ⟨j, p, -, -, -, -, hx⟩ := createFilename_ok hc
        obtain ⟨l, -, hg, hs⟩ := createExcl_ok hx
        subst hs
        have hne : l ≠ [] := FS.ne_root (by rw [hg]; simp)
        exact .other b o d t draw fuel r l rfl hg (by rw [FS.get_set hne, if_pos rfl]) (fun q hq => by rw [FS.get_set hne, if_neg hq])
      · cases hr
      · cases hr
      · cases hr
    | err e =>
      have hf := exec_failed (db := db) (c := c) (fs := fs1) (op := .createArticle b o d t draw fuel) (by rw [hr]; simp)
      have : Call.exec db c fs1 (.createArticle b o d t draw fuel) = (fs1, .err e) := Prod.ext hf hr
      rw [this]
      exact .failed b o d t draw fuel _ rfl (by simp)
    | panic =>
      have hf := exec_failed (db := db) (c := c) (fs := fs1) (op := .createArticle b o d t draw fuel) (by rw [hr]; simp)
      have : Call.exec db c fs1 (.createArticle b o d t draw fuel) = (fs1, .panic) := Prod.ext hf hr
      rw [this]
      exact .failed b o d t draw fuel _ rfl (by simp)
    | diverge =>
      have hf := exec_failed (db := db) (c := c) (fs := fs1) (op := .createArticle b o d t draw fuel) (by rw [hr]; simp)
      have : Call.exec db c fs1 (.createArticle b o d t draw fuel) = (fs1, .diverge) := Prod.ext hf hr
      rw [this]
      exact .failed b o d t draw fuel _ rfl (by simp)
  | _ => exact hread rfl (fun h => h)

/-- C166: a call that failed may be made again: it finds the same disk, and fails in the same way. -/
theorem C166_failed (db : DB) (c : Codec) (fs : FS) (op : Call) (h : ∀ a, (op.exec db c fs).2 ≠ .ok a) :
    op.exec db c (op.exec db c fs).1 = op.exec db c fs := by
  rw [exec_failed h]

/-- C166, the exact condition: making the call again leaves the disk as the first left it exactly when one of the two failed or the call
does not add. -/
theorem C166_exact (db : DB) (c : Codec) (fs : FS) (op : Call) :
    Alike ((op.exec db c (op.exec db c fs).1).1) ((op.exec db c fs).1) ↔
      (∀ a, (op.exec db c fs).2 ≠ .ok a) ∨ (∀ a, (op.exec db c (op.exec db c fs).1).2 ≠ .ok a) ∨ ¬ AddsMore op := by
  constructor
  · intro hs
    by_cases h1 : ∀ a, (op.exec db c fs).2 ≠ .ok a
    · exact .inl h1
    · obtain ⟨a, ha⟩ : ∃ a, (op.exec db c fs).2 = .ok a := Classical.byContradiction fun hn => h1 fun a ha => hn ⟨a, ha⟩
      refine .inr ?_
      have hr := C166_repeated db c fs op a ha
      generalize op.exec db c (op.exec db c fs).1 = s at hr hs ⊢
      cases hr with
      | same h _ => exact .inr h
      | gone u d h => exact .inl (by simp)
      | more x h hd =>
        refine .inr fun hc => h.mp hc ((onceMore_same hd).mp hs)
      | other b o d t draw fuel r l h hn hl _ =>
        have := hs l
        rw [hn, hl] at this
        cases this
      | failed b o d t draw fuel r h hr => exact .inl hr
  · rintro (h | h | h)
    · rw [C166_failed db c fs op h]; exact fun _ => rfl
    · rw [exec_failed h]; exact fun _ => rfl
    · by_cases h1 : ∀ a, (op.exec db c fs).2 ≠ .ok a
      · rw [C166_failed db c fs op h1]; exact fun _ => rfl
      · obtain ⟨a, ha⟩ : ∃ a, (op.exec db c fs).2 = .ok a := Classical.byContradiction fun hn => h1 fun a ha => hn ⟨a, ha⟩
        have hr := C166_repeated db c fs op a ha
        generalize op.exec db c (op.exec db c fs).1 = s at hr ⊢
        cases hr with
        | same _ hd => exact hd
        | gone u d _ => exact fun _ => rfl
        | more x hx hd =>
          refine (onceMore_same hd).mpr (Classical.byContradiction fun hne => h (hx.mpr hne))
        | other b o d t draw fuel r l e hn hl _ => subst e; exact absurd trivial h
        | failed b o d t draw fuel r e hr => exact fun _ => rfl

/-- C166 is false of the code: a comment sent again because its answer was lost is there twice. -/
theorem C166_safe_to_repeat_refuted : ¬ Spec.SafeToRepeat := by
  intro h
  have h1 := h sampleDB asciiCodec (sampleFS.set [ascii "bbs", ascii "boards", ascii "S", ascii "S", ascii "f"] (.file (ascii "text")))
    (.appendArticle (ascii "S") (ascii "f") (ascii "x")) [ascii "bbs", ascii "boards", ascii "S", ascii "S", ascii "f"]
  revert h1
  decide +kernel

/-- C166 (partial: the call does not add). -/
theorem C166_safe_to_repeat_partial (db : DB) (c : Codec) (fs : FS) (op : Call) (h : ¬ AddsMore op) :
    Alike ((op.exec db c (op.exec db c fs).1).1) ((op.exec db c fs).1) := (C166_exact db c fs op).mpr (.inr (.inr h))

/-! ## Any number of times -/

theorem alike_set_set {a b : FS} (h : Alike a b) {l : Path} (hl : l ≠ []) (n : Node) : Alike (a.set l n) (b.set l n) := fun q => by
  rw [FS.get_set hl, FS.get_set hl, h q]

theorem alike_del_del {a b : FS} (h : Alike a b) {l : Path} (hl : l ≠ []) : Alike (a.del l) (b.del l) := fun q => by
  rw [FS.get_del hl, FS.get_del hl, h q]

/-- The two results are the same but for disks that have the same contents. -/
def Spec.AlikeRes : Res FS → Res FS → Prop
  | .ok a, .ok b => Alike a b
  | .err e, .err e' => e = e'
  | .panic, .panic => True
  | .diverge, .diverge => True
  | _, _ => False

theorem alike_writes {a b : FS} (h : Alike a b) {r s : Res FS} (hr : AlikeRes r s) :
    (writes a r).2 = (writes b s).2 ∧ Alike (writes a r).1 (writes b s).1 := by
  cases r <;> cases s <;> first | exact hr.elim | exact ⟨rfl, hr⟩ | exact ⟨congrArg Res.err hr, h⟩ | exact ⟨rfl, h⟩

theorem alikeRes_bind {α : Type} (r : Res α) {f g : α → Res FS} (h : ∀ a, r = .ok a → AlikeRes (f a) (g a)) : AlikeRes (r >>= f) (r >>= g) := by
  cases r with
  | ok a => exact h a rfl
  | err e => exact (rfl : e = e)
  | panic => trivial
  | diverge => trivial

theorem alike_overwrite {a b : FS} (h : Alike a b) (cwd : Path) (p x : Bytes) : AlikeRes (a.overwrite cwd p x) (b.overwrite cwd p x) := by
  unfold FS.overwrite
  rw [FS.alike_openCreate h]
  exact alikeRes_bind _ fun ld e => alike_set_set h (openCreate_twice e []).1 _

theorem alike_writeFile {a b : FS} (h : Alike a b) (cwd : Path) (p x : Bytes) : AlikeRes (a.writeFile cwd p x) (b.writeFile cwd p x) := by
  unfold FS.writeFile
  rw [FS.alike_openCreate h]
  exact alikeRes_bind _ fun ld e => alike_set_set h (openCreate_twice e []).1 _

theorem alike_appendCreate {a b : FS} (h : Alike a b) (cwd : Path) (p x : Bytes) : AlikeRes (a.appendCreate cwd p x) (b.appendCreate cwd p x) := by
  unfold FS.appendCreate
  rw [FS.alike_openCreate h]
  exact alikeRes_bind _ fun ld e => alike_set_set h (openCreate_twice e []).1 _

theorem alike_append {a b : FS} (h : Alike a b) (cwd : Path) (p x : Bytes) : AlikeRes (a.append cwd p x) (b.append cwd p x) := by
  unfold FS.append
  rw [FS.alike_lookup h]
  refine alikeRes_bind _ fun l e => ?_
  rw [h l]
  cases hg : b.get l with
  | none => exact (rfl : "no such file or directory" = _)
  | some n => cases n with
    | dir => exact (rfl : "is a directory" = _)
    | file d => exact alike_set_set h (FS.ne_root (fs := b) (by rw [hg]; simp)) _

theorem alike_createExcl {a b : FS} (h : Alike a b) (cwd : Path) (p : Bytes) : AlikeRes (a.createExcl cwd p) (b.createExcl cwd p) := by
  unfold FS.createExcl
  rw [FS.alike_lookup h]
  refine alikeRes_bind _ fun l e => ?_
  rw [h l]
  cases hg : b.get l with
  | none => exact alike_set_set h (FS.ne_root (fs := b) (by rw [hg]; simp)) _
  | some n => exact (rfl : "file exists" = _)

theorem alike_remove {a b : FS} (h : Alike a b) (cwd : Path) (p : Bytes) : AlikeRes (a.remove cwd p) (b.remove cwd p) := by
  unfold FS.remove
  rw [FS.alike_lookup h]
  refine alikeRes_bind _ fun l e => ?_
  rw [h l, FS.alike_hasChild h]
  cases hg : b.get l with
  | none => exact (rfl : "no such file or directory" = _)
  | some n => cases n with
    | dir =>
      by_cases hl : l = []
      · simp only [if_pos hl]; exact (rfl : "device or resource busy" = _)
      · simp only [if_neg hl]
        cases b.hasChild l with
        | true => exact (rfl : "directory not empty" = _)
        | false => exact alike_del_del h hl
    | file d => exact alike_del_del h (FS.ne_root (fs := b) (by rw [hg]; simp))

theorem alike_readFile {a b : FS} (h : Alike a b) (cwd : Path) (p : Bytes) : a.readFile cwd p = b.readFile cwd p := by
  unfold FS.readFile
  rw [FS.alike_lookup h]
  cases b.lookup cwd p <;> simp only [Res.ok_bind, h _] <;> rfl

theorem alike_createFilename {a b : FS} (h : Alike a b) (db : DB) (board : Bytes) (draw : Nat → Int × Fin 4096) : ∀ (fuel k : Nat),
    match db.createFilename a board draw fuel k, db.createFilename b board draw fuel k with
    | .ok (n, a'), .ok (m, b') => n = m ∧ Alike a' b'
    | .err e, .err e' => e = e'
    | .panic, .panic => True
    | .diverge, .diverge => True
    | _, _ => False
  | 0, _ => trivial
  | fuel + 1, k => by
    simp only [DB.createFilename]
    cases hp : getBoardArticleFilePath db.home board (DB.articleName (draw k).1 (draw k).2) with
    | err e => exact (rfl : e = e)
    | panic => trivial
    | diverge => trivial
    | ok p =>
      simp only [Res.ok_bind]
      have hc := alike_createExcl h db.cwd p
      have ih := alike_createFilename h db board draw fuel (k + 1)
      cases ha : a.createExcl db.cwd p <;> cases hb : b.createExcl db.cwd p <;> rw [ha, hb] at hc <;>
        first | exact hc.elim | exact ⟨rfl, hc⟩ | exact ih

/-- C166: what a call answers and leaves depends on the contents of the disk only. -/
theorem C166_contents (db : DB) (c : Codec) (a b : FS) (h : Alike a b) (op : Call) :
    (op.exec db c a).2 = (op.exec db c b).2 ∧ Alike (op.exec db c a).1 (op.exec db c b).1 := by
  have hread : ∀ {α : Type} (f : α → Answer) {r s : Res α}, r = s → (reads a f r).2 = (reads b f s).2 ∧ Alike (reads a f r).1 (reads b f s).1 := by
    rintro α f r _ rfl
    exact ⟨rfl, h⟩
  cases op with
  | readUsers =>
    refine hread _ ?_
    simp only [DB.readUserRecords, DB.openUserList, FS.alike_lookup h, h _]
  | readFavourites u =>
    refine hread _ ?_
    simp only [DB.readFavorites, DB.readFavoriteFile, DB.openBoardList, FS.alike_statOk h, alike_readFile h, FS.alike_lookup h, h _]
  | readBoards =>
    refine hread _ ?_
    simp only [DB.readBoardRecords, DB.openBoardList, FS.alike_lookup h, h _]
  | listArticles b =>
    refine hread _ ?_
    simp only [DB.readArticleRecords, DB.openArticleList, FS.alike_lookup h, h _]
  | listTreasure b ds =>
    refine hread _ ?_
    simp only [DB.readTreasureRecords, DB.openArticleList, FS.alike_lookup h, h _]
  | readArticle b f =>
    refine hread _ ?_
    simp only [DB.readBoardArticleFile, alike_readFile h]
  | readTreasure b ds f =>
    refine hread _ ?_
    simp only [DB.readTreasureFile, alike_readFile h]
  | readDraft u d =>
    refine hread _ ?_
    simp only [DB.getUserDraft, alike_readFile h, FS.alike_statOk h]
  | addBoard r => exact alike_writes h (alikeRes_bind _ fun p _ => alike_appendCreate h _ _ _)
  | addRecord b r => exact alike_writes h (alikeRes_bind _ fun p _ => alike_appendCreate h _ _ _)
  | writeArticle b f x => exact alike_writes h (alikeRes_bind _ fun p _ => alike_overwrite h _ _ _)
  | appendArticle b f x => exact alike_writes h (alikeRes_bind _ fun p _ => alike_append h _ _ _)
  | deleteDraft u d => exact alike_writes h (alikeRes_bind _ fun p _ => alike_remove h _ _)
  | writeDraft u d x => exact alike_writes h (alikeRes_bind _ fun p _ => alike_writeFile h _ _ _)
  | createArticle bd o d t draw fuel =>
    have hc := alike_createFilename h db bd draw fuel 0
    simp only [Call.exec, DB.createArticleRecord]
    cases ha : db.createFilename a bd draw fuel 0 <;> cases hb : db.createFilename b bd draw fuel 0 <;> rw [ha, hb] at hc
    all_goals first | exact hc.elim | skip
    · rename_i x y
      obtain ⟨n, a'⟩ := x
      obtain ⟨m, b'⟩ := y
      obtain ⟨rfl, hc⟩ : n = m ∧ Alike a' b' := hc
      exact ⟨rfl, hc⟩
    · subst hc
      exact ⟨rfl, h⟩
    · exact ⟨rfl, h⟩
    · exact ⟨rfl, h⟩

/-- The call made `n` times. -/
def Spec.repeated (db : DB) (c : Codec) (op : Call) (n : Nat) (fs : FS) : FS := (Call.execAll db c fs (List.replicate n op)).1

theorem repeated_succ (db : DB) (c : Codec) (op : Call) (n : Nat) (fs : FS) :
    repeated db c op (n + 1) fs = repeated db c op n (op.exec db c fs).1 := rfl

theorem repeated_alike (db : DB) (c : Codec) (op : Call) : ∀ (n : Nat) {a b : FS}, Alike a b → Alike (repeated db c op n a) (repeated db c op n b)
  | 0, _, _, h => h
  | n + 1, a, b, h => by
    rw [repeated_succ, repeated_succ]
    exact repeated_alike db c op n (C166_contents db c a b h op).2

/-- C166: a call that does not add may be made any number of times: the disk is as the first left it. -/
theorem C166_any_number_partial (db : DB) (c : Codec) (fs : FS) (op : Call) (h : ¬ AddsMore op) : ∀ n : Nat,
    Alike (repeated db c op (n + 1) fs) (op.exec db c fs).1
  | 0 => fun _ => rfl
  | n + 1 => by
    rw [repeated_succ]
    intro q
    have h1 := C166_any_number_partial db c (op.exec db c fs).1 op h n q
    rw [h1]
    exact C166_safe_to_repeat_partial db c fs op h q

/-- Non-vacuity: a draft written again; a draft deleted again is said to be missing; a record added again. -/
example : Alike ((Call.exec sampleDB asciiCodec (Call.exec sampleDB asciiCodec sampleFS (.writeDraft (ascii "Ab") (ascii "1") (ascii "x"))).1
      (.writeDraft (ascii "Ab") (ascii "1") (ascii "x"))).1)
    ((Call.exec sampleDB asciiCodec sampleFS (.writeDraft (ascii "Ab") (ascii "1") (ascii "x"))).1) :=
  C166_safe_to_repeat_partial _ _ _ _ (fun h => h)
example : (Call.exec sampleDB asciiCodec sampleFS (.writeDraft (ascii "Ab") (ascii "1") (ascii "x"))).2 = .ok .done := rfl
def Spec.onceDraft : FS := sampleFS.set [ascii "bbs", ascii "home", ascii "A", ascii "Ab", ascii "buf.1"] (.file (ascii "x"))
example : (Call.exec sampleDB asciiCodec onceDraft (.deleteDraft (ascii "Ab") (ascii "1"))).2 = .ok .done := rfl
example : (Call.exec sampleDB asciiCodec (Call.exec sampleDB asciiCodec onceDraft (.deleteDraft (ascii "Ab") (ascii "1"))).1
    (.deleteDraft (ascii "Ab") (ascii "1"))).2 = .err "no such file or directory" := rfl
example : Repeated sampleDB asciiCodec (Call.exec sampleDB asciiCodec onceDraft (.deleteDraft (ascii "Ab") (ascii "1"))).1 (.deleteDraft (ascii "Ab") (ascii "1")) .done
    (Call.exec sampleDB asciiCodec (Call.exec sampleDB asciiCodec onceDraft (.deleteDraft (ascii "Ab") (ascii "1"))).1
      (.deleteDraft (ascii "Ab") (ascii "1"))) := C166_repeated _ _ _ _ _ rfl
example : Call.exec sampleDB asciiCodec (Call.exec sampleDB asciiCodec sampleFS (.deleteDraft (ascii "Ab") (ascii "1"))).1 (.deleteDraft (ascii "Ab") (ascii "1")) =
    Call.exec sampleDB asciiCodec sampleFS (.deleteDraft (ascii "Ab") (ascii "1")) := C166_failed _ _ _ _ (by rintro a ⟨⟩)
example : ¬ Alike ((Call.exec sampleDB asciiCodec (Call.exec sampleDB asciiCodec (onceDraft.set [ascii "bbs", ascii "boards", ascii "S", ascii "S", ascii "f"] (.file []))
      (.appendArticle (ascii "S") (ascii "f") (ascii "x"))).1 (.appendArticle (ascii "S") (ascii "f") (ascii "x"))).1)
    ((Call.exec sampleDB asciiCodec (onceDraft.set [ascii "bbs", ascii "boards", ascii "S", ascii "S", ascii "f"] (.file []))
      (.appendArticle (ascii "S") (ascii "f") (ascii "x"))).1) := by
  rw [C166_exact]
  rintro (h | h | h)
  · exact h .done rfl
  · exact h .done rfl
  · exact h (show ascii "x" ≠ [] by decide)
example : Alike (repeated sampleDB asciiCodec (.writeArticle (ascii "S") (ascii "f") (ascii "x")) 6 sampleFS)
    (Call.exec sampleDB asciiCodec sampleFS (.writeArticle (ascii "S") (ascii "f") (ascii "x"))).1 :=
  C166_any_number_partial sampleDB asciiCodec sampleFS (.writeArticle (ascii "S") (ascii "f") (ascii "x")) (fun h => h) 5
example : (Call.exec sampleDB asciiCodec (sampleFS.set [ascii "a"] .dir) (.writeDraft (ascii "Ab") (ascii "1") (ascii "x"))).2 =
    (Call.exec sampleDB asciiCodec ((sampleFS.set [ascii "a"] (.file [])).set [ascii "a"] .dir) (.writeDraft (ascii "Ab") (ascii "1") (ascii "x"))).2 :=
  (C166_contents _ _ _ _ (fun q => by
    rw [FS.get_set (by decide), FS.get_set (by decide), FS.get_set (by decide)]
    split <;> rfl) _).1

end Verif
