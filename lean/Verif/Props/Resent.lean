import Verif.Props.Again
/-!
# C167: a text sent again after others have added to it
-/

namespace Verif
open Spec

/-- C167, the whole claim: an article written again, whatever was called in between, is left as it was before. -/
def Spec.SafeToResend : Prop := ∀ (db : DB) (c : Codec) (fs : FS) (b f x : Bytes) (ops : List Call),
  ((Call.writeArticle b f x).exec db c fs).2 = .ok .done →
  Alike ((Call.writeArticle b f x).exec db c (Call.execAll db c ((Call.writeArticle b f x).exec db c fs).1 ops).1).1
    (Call.execAll db c ((Call.writeArticle b f x).exec db c fs).1 ops).1

/-- Directories stay, and files stay with what they had at their start. -/
def Spec.OnlyAdds (fs fs' : FS) : Prop :=
  (∀ q, fs.get q = some .dir → fs'.get q = some .dir) ∧ ∀ q d, fs.get q = some (.file d) → ∃ e, fs'.get q = some (.file (d ++ e))

theorem onlyAdds_refl (fs : FS) : OnlyAdds fs fs := ⟨fun _ h => h, fun _ d h => ⟨[], by simpa using h⟩⟩

theorem onlyAdds_trans {a b c : FS} (h : OnlyAdds a b) (h' : OnlyAdds b c) : OnlyAdds a c := by
  refine ⟨fun q hq => h'.1 q (h.1 q hq), fun q d hq => ?_⟩
  obtain ⟨e, he⟩ := h.2 q d hq
  obtain ⟨e', he'⟩ := h'.2 q _ he
  exact ⟨e ++ e', by rw [he', List.append_assoc]⟩

theorem onlyAdds_set {fs : FS} {l : Path} {d x : Bytes} (hn : fs.get l ≠ some .dir) (hd : d = (fileAt fs l).getD []) :
    OnlyAdds fs (fs.set l (.file (d ++ x))) := by
  have hl := FS.ne_root hn
  refine ⟨fun q hq => ?_, fun q e hq => ?_⟩
  · rw [FS.get_set hl, if_neg, hq]
    rintro rfl
    exact hn hq
  · rw [FS.get_set hl]
    split
    · rename_i h
      subst h
      have : d = e := by rw [hd]; simp [fileAt, hq]
      exact ⟨x, by rw [this]⟩
    · exact ⟨[], by simpa using hq⟩

/-- The calls that neither write over a text nor delete. -/
def Spec.CallKeeps : Call → Prop
  | .writeArticle _ _ _ | .writeDraft _ _ _ | .deleteDraft _ _ => False
  | _ => True

theorem writes_onlyAdds {fs : FS} {r : Res FS} (h : ∀ fs', r = .ok fs' → OnlyAdds fs fs') : OnlyAdds fs (writes fs r).1 := by
  cases r with
  | ok fs' => exact h fs' rfl
  | err e => exact onlyAdds_refl fs
  | panic => exact onlyAdds_refl fs
  | diverge => exact onlyAdds_refl fs

theorem appendCreate_onlyAdds {fs fs' : FS} {cwd : Path} {p x : Bytes} (h : fs.appendCreate cwd p x = .ok fs') : OnlyAdds fs fs' := by
  unfold FS.appendCreate at h
  obtain ⟨⟨l, d⟩, ho, h⟩ := Res.bind_eq_ok.mp h
  have := Res.ok.inj h
  subst this
  obtain ⟨-, hn, hd⟩ := FS.openCreate_ok ho
  exact onlyAdds_set hn hd

theorem append_onlyAdds {fs fs' : FS} {cwd : Path} {p x : Bytes} (h : fs.append cwd p x = .ok fs') : OnlyAdds fs fs' := by
  unfold FS.append at h
  obtain ⟨l, hl, h⟩ := Res.bind_eq_ok.mp h
  split at h
  · cases h
  · cases h
  · rename_i d hg
    have := Res.ok.inj h
    subst this
    exact onlyAdds_set (by rw [hg]; simp) (by simp [fileAt, hg])

/-- A call that neither writes over a text nor deletes leaves every file with what it had at its start. -/
theorem exec_onlyAdds (db : DB) (c : Codec) (fs : FS) (op : Call) (h : CallKeeps op) : OnlyAdds fs (op.exec db c fs).1 := by
  cases op with
  | writeArticle b f x => exact h.elim
  | writeDraft u d x => exact h.elim
  | deleteDraft u d => exact h.elim
  | addBoard r =>
    refine writes_onlyAdds fun fs' e => ?_
    obtain ⟨p, -, e⟩ := Res.bind_eq_ok.mp e
    exact appendCreate_onlyAdds e
  | addRecord b r =>
    refine writes_onlyAdds fun fs' e => ?_
    obtain ⟨p, -, e⟩ := Res.bind_eq_ok.mp e
    exact appendCreate_onlyAdds e
  | appendArticle b f x =>
    refine writes_onlyAdds fun fs' e => ?_
    obtain ⟨p, -, e⟩ := Res.bind_eq_ok.mp e
    exact append_onlyAdds e
  | createArticle b o d t draw fuel =>
    simp only [Call.exec]
    split
    · rename_i r fs2 e
      simp only [DB.createArticleRecord] at e
      obtain ⟨⟨name, fs3⟩, hc, e⟩ := Res.bind_eq_ok.mp e
      have e' := Res.ok.inj e
      injection e' with e1 e2
      subst e2
      obtain ⟨j, p, -, -, -, -, hx⟩ := createFilename_ok hc
      obtain ⟨l, -, hg, hs⟩ := createExcl_ok hx
      subst hs
      have : OnlyAdds fs (fs.set l (.file ([] ++ []))) := onlyAdds_set (by rw [hg]; simp) (by simp [fileAt, hg])
      exact this
    · exact onlyAdds_refl fs
    · exact onlyAdds_refl fs
    · exact onlyAdds_refl fs
  | _ => exact onlyAdds_refl fs

/-- C167: calls that neither write over a text nor delete leave every directory, and every file with what it had at its start. -/
theorem C167_only_adds (db : DB) (c : Codec) : ∀ (ops : List Call) (fs : FS), (∀ op ∈ ops, CallKeeps op) → OnlyAdds fs (Call.execAll db c fs ops).1
  | [], fs, _ => onlyAdds_refl fs
  | op :: ops, fs, h => by
    have h1 := exec_onlyAdds db c fs op (h op List.mem_cons_self)
    have h2 := C167_only_adds db c ops (op.exec db c fs).1 fun o ho => h o (List.mem_cons_of_mem _ ho)
    exact onlyAdds_trans h1 h2

theorem writeAt_prefix (x e : Bytes) : writeAt (x ++ e) 0 x = x ++ e := by simp [writeAt, zeros]

theorem writeAt_prefix_iff (d x : Bytes) : writeAt d 0 x = d ↔ x <+: d := by
  constructor
  · intro h
    rw [← h]
    simp [writeAt, zeros]
  · rintro ⟨e, rfl⟩
    exact writeAt_prefix x e

/-- C167, the exact condition: writing an article changes nothing exactly when the article is there and begins with the text. -/
theorem C167_exact (db : DB) (c : Codec) (fs : FS) (b f x : Bytes) (h : ((Call.writeArticle b f x).exec db c fs).2 = .ok .done) :
    Alike ((Call.writeArticle b f x).exec db c fs).1 fs ↔ ∃ d, db.readBoardArticleFile fs b f = .ok d ∧ x <+: d := by
  simp only [Call.exec] at h ⊢
  obtain ⟨fs1, h1, h2⟩ := writes_ok h
  rw [h2]
  unfold DB.writeBoardArticleFile at h1
  obtain ⟨p, hp, h1⟩ := Res.bind_eq_ok.mp h1
  unfold FS.overwrite at h1
  obtain ⟨⟨l, d⟩, ho, h1⟩ := Res.bind_eq_ok.mp h1
  have := Res.ok.inj h1
  subst this
  obtain ⟨hl, hn, hd⟩ := FS.openCreate_ok ho
  simp only [DB.readBoardArticleFile, hp, Res.ok_bind, FS.readFile_of hl]
  have hne := FS.ne_root hn
  constructor
  · intro ha
    have := ha l
    rw [FS.get_set hne, if_pos rfl] at this
    rw [← this]
    refine ⟨writeAt d 0 x, rfl, ?_⟩
    simp [writeAt, zeros]
  · rintro ⟨d', hr, hx⟩ q
    rw [FS.get_set hne]
    split
    · rename_i e
      subst e
      cases hg : fs.get q with
      | none => rw [hg] at hr; cases hr
      | some n =>
        rw [hg] at hr
        cases n with
        | dir => cases hr
        | file y =>
          have hy : y = d' := Res.ok.inj hr
          have : d = d' := by rw [hd, ← hy]; simp [fileAt, hg]
          subst this
          rw [(writeAt_prefix_iff d x).mpr hx, hy]
    · rfl

/-- C167 (partial: none of the calls in between writes over a text or deletes): the article written again, after any comments, records,
boards and articles were added and by any names, is left as it was, with all that was added. -/
theorem C167_safe_to_resend_partial (db : DB) (c : Codec) (fs : FS) (b f x : Bytes) (ops : List Call)
    (h : ((Call.writeArticle b f x).exec db c fs).2 = .ok .done) (hops : ∀ op ∈ ops, CallKeeps op) :
    ((Call.writeArticle b f x).exec db c (Call.execAll db c ((Call.writeArticle b f x).exec db c fs).1 ops).1).2 = .ok .done ∧
    Alike ((Call.writeArticle b f x).exec db c (Call.execAll db c ((Call.writeArticle b f x).exec db c fs).1 ops).1).1
      (Call.execAll db c ((Call.writeArticle b f x).exec db c fs).1 ops).1 := by
  obtain ⟨hdirs, hfiles⟩ := C167_only_adds db c ops ((Call.writeArticle b f x).exec db c fs).1 hops
  generalize (Call.execAll db c ((Call.writeArticle b f x).exec db c fs).1 ops).1 = fs2 at hdirs hfiles ⊢
  simp only [Call.exec] at h hdirs hfiles
  obtain ⟨fs1, h1, h2⟩ := writes_ok h
  rw [h2] at hdirs hfiles
  unfold DB.writeBoardArticleFile at h1
  obtain ⟨p, hp, h1⟩ := Res.bind_eq_ok.mp h1
  unfold FS.overwrite at h1
  obtain ⟨⟨l, d⟩, ho, h1⟩ := Res.bind_eq_ok.mp h1
  have := Res.ok.inj h1
  subst this
  obtain ⟨hl, hn, hd⟩ := FS.openCreate_ok ho
  have hne := FS.ne_root hn
  obtain ⟨e, he⟩ := hfiles l (writeAt d 0 x) (by rw [FS.get_set hne, if_pos rfl])
  have hl2 : fs2.lookup db.cwd p = .ok l := FS.lookup_mono hdirs (FS.lookup_mono (FS.set_file_dirs hn) hl)
  have hok : ((Call.writeArticle b f x).exec db c fs2).2 = .ok .done := by
    simp only [Call.exec, DB.writeBoardArticleFile, hp, Res.ok_bind, FS.overwrite, FS.openCreate, hl2, he, writes]
  refine ⟨hok, (C167_exact db c fs2 b f x hok).mpr ⟨writeAt d 0 x ++ e, ?_, ?_⟩⟩
  · simp only [DB.readBoardArticleFile, hp, Res.ok_bind, FS.readFile_of hl2, he]
  · simp [writeAt, zeros]

/-- C167 is false of the code: what another wrote over the article in between is written over. -/
theorem C167_safe_to_resend_refuted : ¬ Spec.SafeToResend := by
  intro h
  have h1 := h sampleDB asciiCodec sampleFS (ascii "S") (ascii "f") (ascii "x") [.writeArticle (ascii "S") (ascii "f") (ascii "y")] rfl
    [ascii "bbs", ascii "boards", ascii "S", ascii "S", ascii "f"]
  revert h1
  decide +kernel

/-- Non-vacuity: two comments come between; the article keeps them. -/
example : let ops : List Call := [.appendArticle (ascii "S") (ascii "f") (ascii "1"), .appendArticle (ascii "S") (ascii "f") (ascii "2")]
    Alike ((Call.writeArticle (ascii "S") (ascii "f") (ascii "x")).exec sampleDB asciiCodec
        (Call.execAll sampleDB asciiCodec ((Call.writeArticle (ascii "S") (ascii "f") (ascii "x")).exec sampleDB asciiCodec sampleFS).1 ops).1).1
      (Call.execAll sampleDB asciiCodec ((Call.writeArticle (ascii "S") (ascii "f") (ascii "x")).exec sampleDB asciiCodec sampleFS).1 ops).1 :=
  (C167_safe_to_resend_partial sampleDB asciiCodec sampleFS (ascii "S") (ascii "f") (ascii "x") _ rfl (by
    intro op hop
    simp only [List.mem_cons, List.not_mem_nil, or_false] at hop
    rcases hop with rfl | rfl <;> exact trivial)).2
example : sampleDB.readBoardArticleFile (Call.execAll sampleDB asciiCodec sampleFS [.writeArticle (ascii "S") (ascii "f") (ascii "x"),
    .appendArticle (ascii "S") (ascii "f") (ascii "1"), .appendArticle (ascii "S") (ascii "f") (ascii "2"),
    .writeArticle (ascii "S") (ascii "f") (ascii "x")]).1 (ascii "S") (ascii "f") = .ok (ascii "x12") := by decide +kernel
example : ¬ Alike ((Call.writeArticle (ascii "S") (ascii "f") []).exec sampleDB asciiCodec sampleFS).1 sampleFS := by
  rw [C167_exact sampleDB asciiCodec sampleFS (ascii "S") (ascii "f") [] rfl]
  rintro ⟨d, h, -⟩
  cases h
example : OnlyAdds sampleFS (Call.execAll sampleDB asciiCodec sampleFS [.appendArticle (ascii "S") (ascii "f") (ascii "1"),
    .createArticle (ascii "S") (ascii "Ab") (ascii "11/16") (ascii "hi") (fun _ => (1600000000, 0xABC)) 3]).1 :=
  C167_only_adds _ _ _ _ (by
    intro op hop
    simp only [List.mem_cons, List.not_mem_nil, or_false] at hop
    rcases hop with rfl | rfl <;> exact trivial)

end Verif
