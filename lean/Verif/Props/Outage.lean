import Verif.Proofs.Outage
/-!
# C122: the machine stops while clients post, read and comment
-/

namespace Verif
open Spec

/-- **C122, posts.** Any number of clients post articles (file, text, list), read and comment. Wherever the machine stops, in the middle of whatever
writes: every post that was through is in its list, with its whole text in a file of its own; what was there before is there; behind it are at most
as many records as writes had begun. -/
theorem C122_posts_survive : PostsSurvive Post.script := by
  intro db c fs posts script hS sched cuts
  have hC := scene_company hS
  obtain ⟨hrf, hap⟩ := C118_race_free hC
  obtain ⟨marks, D, s, h1, h2, h3⟩ := pair_reached db c fs script sched hrf hap
  have hb : ∀ p P, posts p = some P → (sceneRules db c fs posts).placed (.articleIndex P.board) := fun p P hP => (hS.posters p P hP).2.1
  have hd : ∀ p P, posts p = some P → ∀ j, -2 ^ 63 ≤ (P.draw j).1 ∧ (P.draw j).1 < 2 ^ 63 := fun p P hP j => ((hS.posters p P hP).2.2 j).2
  have hstart := orderly_start hC.tidy hC.start hC.decent
  obtain ⟨k, name, order, hO, hL⟩ := ledger_run hC.grows hb hd h1 [] _ _ _ hstart
    (ledger_start (posts := posts) (m := holdings db fs) (fun p P hP => (hS.posters p P hP).1) (fun p hp => guest_quiet (hS.guests p hp)))
  obtain ⟨k', hO', hD⟩ := diary_run hC.grows h1 [] _ hstart (diary_start (R := sceneRules db c fs posts) (m := holdings db fs))
  obtain ⟨D', hS', hw⟩ := worn_outage h3 (fun p op next ht => hap s ⟨marks, h1⟩ p op next ht) cuts
  rw [List.nil_append, h2] at hL
  have named : ∀ p ∈ order, ∀ P, posts p = some P → name p = some ((name p).getD []) := by
    intro p hp P hP
    have hs := hL.stages p P hP
    cases hn : name p with
    | some n => rfl
    | none =>
      rw [hn] at hs
      generalize ht : s.turn p = t at hs
      cases hs with
      | idle0 hl => exact absurd hp hl
      | called0 hl => exact absurd hp hl
      | failed hl => exact absurd hp hl
      | gone hl _ => exact absurd hp hl
  have entries : ∀ b, order.filterMap (entry c posts name b) =
      order.filterMap (fun p => (posts p).bind fun P => if P.board = b then some (storedArticle c (P.record ((name p).getD []))) else none) := by
    intro b
    refine filterMap_same fun p hp => ?_
    cases hP : posts p with
    | none => exact absurd hP (hL.only p hp)
    | some P =>
      unfold entry
      rw [hP, named p hp P hP]
      rfl
  refine ⟨order, fun p => (name p).getD [], hL.nodup, hL.only, ?_, ?_, ?_, ?_⟩
  · rintro p P hP ⟨hsess, hret⟩
    have hturn := ((pair_idle h3).1 p .stop).mp hsess
    have hs := hL.stages p P hP
    rw [hturn] at hs
    generalize hn : name p = nm at hs
    generalize ht : Turn.idle Script.stop = t at hs
    cases hs with
    | gone hl hg => exact absurd hg hret
    | idle3 hl => exact hl
    | _ => cases ht
  · intro b hpl
    obtain ⟨x, hx, e⟩ := worn_list h3.gap hw b
    have h128 : 128 ∣ ((s.hold (.articleIndex b)).getD []).length := by
      cases ho : s.hold (.articleIndex b) with
      | none => exact ⟨0, rfl⟩
      | some d => exact hO.lists b d hpl ho
    obtain ⟨begun, h4, h5⟩ := articlesIn_prefix c h128 hx
    refine ⟨begun, h4, ?_⟩
    have hcall := (call_step (c := c) hS' (.listArticles b) (fun o ho => by rw [show o = _ from ho]; exact hpl)).1
    unfold listed
    rw [hcall]
    simp only [intended]
    rw [e, h5, show articlesIn c ((s.hold (.articleIndex b)).getD []) = _ from hL.lists b hpl, ← entries b]
    rfl
  · intro p hp P hP
    have hn := named p hp P hP
    have hname := stored_name (c := c) (hL.drawn p P _ hP hn) (hd p P hP)
    refine ⟨hname, hL.fresh p P _ hP hn, ?_, ?_⟩
    · intro q hq Q hQ hpq hbd e
      have e : (name p).getD [] = (name q).getD [] := e
      refine hL.apart p q P Q _ hpq hP hQ hbd hn ?_
      rw [named q hq Q hQ, ← e]
    · obtain ⟨z, hz⟩ := hL.texts p hp P _ hP hn
      obtain ⟨j, hj⟩ := hL.drawn p P _ hP hn
      have hpl : Placed db fs (.article P.board ((name p).getD [])) := by rw [hj]; exact ((hS.posters p P hP).2.2 j).1
      have hin : storedArticle c (P.record ((name p).getD [])) ∈ articlesIn c ((s.hold (.articleIndex P.board)).getD []) := by
        rw [show articlesIn c ((s.hold (.articleIndex P.board)).getD []) = _ from hL.lists P.board (hb p P hP)]
        refine List.mem_append_right _ (List.mem_filterMap.mpr ⟨p, hp, ?_⟩)
        unfold entry
        rw [hP, hn]
        exact if_pos rfl
      have hopen : Open (sceneRules db c fs posts) s.hold k P.board ((name p).getD []) := by
        cases ho : s.hold (.articleIndex P.board) with
        | none =>
          rw [ho] at hin
          exact absurd hin (by simp [articlesIn, slots])
        | some d =>
          rw [ho] at hin
          have := hO.listed P.board d (hb p P hP) ho _ hin
          rw [hname] at this
          exact this
      obtain ⟨z', hz'⟩ := worn_article hO h3.gap hw hz hopen.2
      exact ⟨z ++ z', by rw [shows_fileAt hS' hpl, hz', List.append_assoc]⟩
  · intro b f y0 hpl hy0
    obtain ⟨⟨z, hz⟩, hown⟩ := hD.old b f y0 hy0
    obtain ⟨z', hz'⟩ := worn_article hO' h3.gap hw hz hown
    exact ⟨z ++ z', by rw [shows_fileAt hS' hpl, hz', List.append_assoc]⟩

/-- **C122, comments.** A comment that was accepted is there, wherever the machine stops. -/
theorem C122_comments_survive : CommentsSurvive Post.script := by
  intro db c fs posts script hS sched cuts before after p b f x h hc
  have hC := scene_company hS
  obtain ⟨hrf, hap⟩ := C118_race_free hC
  obtain ⟨marks, D, s, h1, h2, h3⟩ := pair_reached db c fs script sched hrf hap
  obtain ⟨k, hO, hD⟩ := diary_run hC.grows h1 [] _ (orderly_start hC.tidy hC.start hC.decent) diary_start
  obtain ⟨D', hS', hw⟩ := worn_outage h3 (fun p op next ht => hap s ⟨marks, h1⟩ p op next ht) cuts
  obtain ⟨⟨q, hq⟩, u, v, hy⟩ := hD.adds before after p b f x (by rw [List.nil_append, h2]; exact h) hc
  have hk := hO.known q b f hq
  obtain ⟨z, hz⟩ := worn_article hO h3.gap hw hy hk.2
  exact ⟨u, v ++ z, by rw [shows_fileAt hS' (hC.placed _ hk.1.1), hz]; simp⟩

/-! ## Starting again -/

/-- No call makes a directory. -/
theorem step_dirs (cwd : Path) (fs : FS) (n : Nat) (j : Job) (q : Path) (h : (j.step cwd fs n).1.get q = some .dir) : fs.get q = some .dir := by
  have hset : ∀ {l : Path} {x : Bytes} {fs : FS}, l ≠ [] → (fs.set l (.file x)).get q = some .dir → fs.get q = some .dir := by
    intro l x fs hr h
    rw [FS.get_set hr] at h
    split at h
    · cases h
    · exact h
  cases j with
  | done r => exact h
  | stat p k => exact h
  | openRead p k => exact h
  | openWrite p k => exact h
  | openMake p k =>
    simp only [Job.step] at h
    split at h
    · next l d e =>
      have hl := FS.ne_root (FS.openCreate_ok e).2.1
      dsimp only at h
      split at h
      · exact hset hl h
      · exact h
    · exact h
    · exact h
    · exact h
  | openTrunc p k =>
    simp only [Job.step] at h
    split at h
    · next l d e => exact hset (FS.ne_root (FS.openCreate_ok e).2.1) h
    · exact h
    · exact h
    · exact h
  | openExcl p k =>
    simp only [Job.step] at h
    split at h
    · next fs' e =>
      unfold FS.createExcl at e
      obtain ⟨l, hl, e⟩ := Res.bind_eq_ok.mp e
      split at e
      · next hn =>
        cases e
        exact hset (FS.ne_root (fs := fs) (by rw [hn]; simp)) h
      · cases e
    · exact h
  | read l size got pos k =>
    simp only [Job.step] at h
    split at h
    · split at h <;> exact h
    · split at h <;> exact h
    · exact h
  | append l bs k =>
    simp only [Job.step] at h
    split at h
    · next d e => exact hset (FS.ne_root (fs := fs) (by rw [e]; simp)) h
    · exact h
  | put l bs k =>
    simp only [Job.step] at h
    split at h
    · next d e => exact hset (FS.ne_root (fs := fs) (by rw [e]; simp)) h
    · exact h
  | unlink p k =>
    simp only [Job.step] at h
    split at h
    · next fs' e =>
      have hdel : ∀ {l : Path}, l ≠ [] → (fs.del l).get q = some .dir → fs.get q = some .dir := by
        intro l hl h
        rw [FS.get_del hl] at h
        split at h
        · cases h
        · exact h
      unfold FS.remove at e
      obtain ⟨l, -, e⟩ := Res.bind_eq_ok.mp e
      split at e
      · cases e
      · next hg =>
        cases e
        exact hdel (FS.ne_root (fs := fs) (by rw [hg]; simp)) h
      · split at e
        · cases e
        · next hl =>
          split at e
          · cases e
          · cases e
            exact hdel hl h
    · exact h
    · exact h
    · exact h

theorem run_dirs (db : DB) (c : Codec) (q : Path) (sched : List (Nat × Nat)) : ∀ s : House, (s.run db c sched).1.fs.get q = some .dir →
    s.fs.get q = some .dir := by
  induction sched with
  | nil => exact fun _ h => h
  | cons x sched ih =>
    obtain ⟨p, n⟩ := x
    intro s h
    have h := ih (s.step db c p n).1 h
    unfold House.step at h
    split at h
    · exact h
    · exact h
    · exact h
    · exact step_dirs db.cwd s.fs n _ q h

theorem placed_same {db : DB} {fs fs' : FS} {D : Holding} (hS : Shows db fs fs' D) (hd : ∀ q, fs'.get q = some .dir → fs.get q = some .dir) (o : Obj) :
    Placed db fs' o ↔ Placed db fs o := by
  constructor
  · rintro ⟨h1, h2, ⟨p, l, h3, h4⟩, h5⟩
    exact ⟨h1, h2, ⟨p, l, h3, FS.lookup_mono hd h4⟩, fun e => h5 (hS.dirs _ e)⟩
  · intro h
    obtain ⟨p, h3, h4⟩ := shows_place hS h
    exact ⟨h.names, h.free, ⟨p, _, h3, h4⟩, shows_notDir hS h⟩

theorem guest_placed {placed placed' : Obj → Prop} (h : ∀ o, placed o → placed' o) {s : Script} (hs : Guest placed s) : Guest placed' s := by
  rcases hs with e | ⟨b, hb, e⟩ | ⟨b, x, hb, e⟩ | ⟨user, hb, e⟩
  · exact Or.inl e
  · exact Or.inr (Or.inl ⟨b, h _ hb, e⟩)
  · exact Or.inr (Or.inr (Or.inl ⟨b, x, h _ hb, e⟩))
  · exact Or.inr (Or.inr (Or.inr ⟨user, h _ hb, e⟩))

/-- **C122, starting again.** If the machine stops, or the clients are killed, between two system calls, the disk is in good order: other clients can
go on posting, reading and commenting, and C118, C119 and C122 hold of them. -/
theorem C122_starts_again : StartsAgain Post.script [] := by
  intro db c fs posts script hS hbl sched posts' script' hp' hg'
  have hC := scene_company hS
  obtain ⟨hrf, hap⟩ := C118_race_free hC
  obtain ⟨marks, D, s, h1, h2, h3⟩ := pair_reached db c fs script sched hrf hap
  obtain ⟨k, hO, hD⟩ := diary_run hC.grows h1 [] _ (orderly_start hC.tidy hC.start hC.decent) (diary_start (m := holdings db fs))
  have same := placed_same h3.holds (run_dirs db c · sched (opening fs script))
  have hold : ∀ o, Placed db fs o → holdings db ((opening fs script).run db c sched).1.fs o = D o := fun o ho => shows_fileAt h3.holds ho
  have list : ∀ b d, D (.articleIndex b) = some d → s.hold (.articleIndex b) = some d ∨ d = [] := by
    intro b d hd
    rcases h3.gap (.articleIndex b) with e | ⟨p, op, next, _, hu⟩
    · exact Or.inl (e ▸ hd)
    · cases op with
      | addRecord b' r => rw [hu.2.1] at hd; exact Or.inr (Option.some.inj hd).symm
      | addBoard => cases hu.1
      | writeArticle => cases hu.1
      | writeDraft => cases hu.1
      | _ => exact hu.elim
  have there : ∀ b f, s.hold (.article b f) ≠ none → D (.article b f) ≠ none := by
    intro b f h
    rcases h3.gap (.article b f) with e | ⟨p, op, next, _, hu⟩
    · rw [e]; exact h
    · cases op with
      | writeArticle b' f' x => exact absurd hu.2.2 h
      | addBoard => cases hu.1
      | addRecord => cases hu.1
      | writeDraft => cases hu.1
      | _ => exact hu.elim
  refine ⟨⟨?_, ?_, ?_⟩, ?_, ?_⟩
  · obtain ⟨d, hd, h256, hr⟩ := hO.boards
    refine ⟨d, ?_, h256, fun r hr' => (same _).mpr (hr r hr')⟩
    show holdings db ((opening fs script).run db c sched).1.fs .boardList = some d
    rw [hold _ hbl]
    rcases h3.gap .boardList with e | ⟨p, op, next, _, hu⟩
    · rw [e, hd]
    · cases op with
      | addBoard r => rw [hu.2.2] at hd; cases hd
      | addRecord => cases hu.1
      | writeArticle => cases hu.1
      | writeDraft => cases hu.1
      | _ => exact hu.elim
  · intro b d hb hd
    have hb := (same _).mp hb
    have hd := (hold _ hb).symm.trans hd
    rcases list b d hd with h | rfl
    · exact hO.lists b d hb h
    · exact ⟨0, rfl⟩
  · intro b d hb hd r hr
    have hb := (same _).mp hb
    have hd := (hold _ hb).symm.trans hd
    rcases list b d hd with h | rfl
    · obtain ⟨⟨h4, h5⟩, _⟩ := hO.listed b d hb h r hr
      refine ⟨(same _).mpr h4, ?_⟩
      rcases h5 with h5 | h5
      · left
        show holdings db ((opening fs script).run db c sched).1.fs _ ≠ none
        rw [hold _ h4]
        exact there _ _ h5
      · exact Or.inr h5
    · exact absurd hr (by simp [articlesIn, slots])
  · intro p P hP
    obtain ⟨h4, h5, h6⟩ := hp' p P hP
    exact ⟨h4, (same _).mpr h5, fun j => ⟨(same _).mpr (h6 j).1, (h6 j).2⟩⟩
  · exact fun p hp => guest_placed (fun o ho => (same o).mpr ho) (hg' p hp)

theorem life_placed {db : DB} {c : Codec} {fs fs' : FS} (h : Life db c fs fs') (o : Obj) : Placed db fs' o ↔ Placed db fs o := by
  obtain ⟨posts, script, hS, sched, rfl⟩ := h
  obtain ⟨hrf, hap⟩ := C118_race_free (scene_company hS)
  obtain ⟨marks, D, s, h1, h2, h3⟩ := pair_reached db c fs script sched hrf hap
  exact placed_same h3.holds (run_dirs db c · sched (opening fs script)) o

theorem lives_placed {db : DB} {c : Codec} {fs fs' : FS} (h : Lives db c fs fs') (o : Obj) : Placed db fs' o ↔ Placed db fs o := by
  induction h with
  | none => exact Iff.rfl
  | more _ h' ih => exact (life_placed h' o).trans ih

theorem listed_eq {db : DB} {c : Codec} {fs : FS} {b : Bytes} (h : Placed db fs (.articleIndex b)) :
    listed db c fs b = .ok (.articles (articlesIn c ((holdings db fs (.articleIndex b)).getD []))) :=
  (call_step (c := c) (shows_start db fs) (.listArticles b) (fun o ho => by rw [show o = _ from ho]; exact h)).1

/-- **C122, any number of lives.** However often the machine stops between system calls and other clients go on: the lists keep their records, in
order, and the articles keep their texts. -/
theorem C122_lives {db : DB} {c : Codec} {fs fs' : FS} (h : Lives db c fs fs') :
    (∀ b, Placed db fs (.articleIndex b) → ∃ old more, listed db c fs b = .ok (.articles old) ∧ listed db c fs' b = .ok (.articles (old ++ more))) ∧
    ∀ b f y, Placed db fs (.article b f) → fileAt fs (at_ db (.article b f)) = some y → ∃ z, fileAt fs' (at_ db (.article b f)) = some (y ++ z) := by
  induction h with
  | none => exact ⟨fun b hb => ⟨_, [], listed_eq hb, by rw [List.append_nil, listed_eq hb]⟩, fun b f y _ hy => ⟨[], by rw [List.append_nil, hy]⟩⟩
  | @more fs' fs'' h h' ih =>
    have same := lives_placed h
    obtain ⟨posts, script, hS, sched, rfl⟩ := h'
    obtain ⟨order, name, -, -, -, h1, -, h2⟩ := C122_posts_survive db c fs' posts script hS sched []
    constructor
    · intro b hb
      obtain ⟨old, more, h3, h4⟩ := ih.1 b hb
      obtain ⟨begun, -, h5⟩ := h1 b ((same _).mpr hb)
      rw [listed_eq ((same _).mpr hb)] at h4
      have h4 := Answer.articles.inj (Res.ok.inj h4)
      rw [h4, List.append_assoc, List.append_assoc] at h5
      exact ⟨old, _, h3, h5⟩
    · intro b f y hb hy
      obtain ⟨z, hz⟩ := ih.2 b f y hb hy
      obtain ⟨z', hz'⟩ := h2 b f _ ((same _).mpr hb) hz
      exact ⟨z ++ z', by rw [hz', List.append_assoc]⟩

/-! ## What does not hold -/

/-- The file of the first record of a list. -/
def Spec.firstName : Res Answer → Option Bytes
  | .ok (.articles (r :: _)) => some r.filename
  | _ => none

/-- **C122 is false of the way the tool posts articles:** when the machine stops after the record is in the list, the list names an article without its
text. -/
theorem C122_tool_refuted : ¬ PostsSurvive Post.toolScript := by
  intro H
  have hS := scene_ok Post.toolScript .stop (Or.inl rfl)
  generalize hsched : List.replicate 7 (0, 0) = sched
  obtain ⟨order, name, -, h1, -, h2, h3, -⟩ := H sampleDB asciiCodec sceneFS scenePosts _ hS sched []
  obtain ⟨begun, hb, hl⟩ := h2 (ascii "S") scene_placed.1
  rw [scene_empty, List.eq_nil_of_length_eq_zero (Nat.le_zero.mp hb), List.append_nil] at hl
  have hfirst : firstName (listed sampleDB asciiCodec (((opening sceneFS (sceneScript Post.toolScript .stop)).run sampleDB asciiCodec sched).1.outage [])
      (ascii "S")) = some newName := by
    subst hsched
    decide +kernel
  have hfile : fileAt (((opening sceneFS (sceneScript Post.toolScript .stop)).run sampleDB asciiCodec sched).1.outage [])
      (at_ sampleDB (.article (ascii "S") newName)) = some [] := by
    subst hsched
    decide +kernel
  rw [hl] at hfirst
  match order, h1, h3, hfirst with
  | [], _, _, hf => cases hf
  | (p + 1) :: _, h1, _, _ => exact h1 (p + 1) (by simp) rfl
  | 0 :: rest, _, h3, hf =>
    obtain ⟨hn, -, -, z, hz⟩ := h3 0 (by simp) scenePost rfl
    have hf : (storedArticle asciiCodec (scenePost.record (name 0))).filename = newName := Option.some.inj hf
    rw [← hn, hf, show scenePost.board = ascii "S" from rfl, hfile] at hz
    have := congrArg List.length (Option.some.inj hz)
    rw [List.length_append, show scenePost.text.length = 8 from by decide] at this
    simp only [List.length_nil] at this
    omega

/-- **C122, starting again is false when a record is torn:** the list is no longer made of whole records. -/
theorem C122_torn_refuted : ¬ ∀ cuts, StartsAgain Post.script cuts := by
  intro H
  have hS := scene_ok Post.script .stop (Or.inl rfl)
  generalize hsched : List.replicate 9 (0, 0) = sched
  have := H [(0, 5)] sampleDB asciiCodec sceneFS scenePosts _ hS (placed_set sample_placed.2.2.1 sample_placed.2.2.1 _) sched scenePosts _ hS.posters hS.guests
  have hd : holdings sampleDB (((opening sceneFS (sceneScript Post.script .stop)).run sampleDB asciiCodec sched).1.outage [(0, 5)])
      (.articleIndex (ascii "S")) = some (newName.take 5) := by
    subst hsched
    decide +kernel
  have := this.tidy.lists (ascii "S") _ (this.posters 0 scenePost rfl).2.1 hd
  revert this
  decide +kernel

/-! ## Examples -/

/-- The hypotheses of C122, with one client that posts and one that comments. -/
example : Scene Post.script sampleDB asciiCodec sceneFS scenePosts (sceneScript Post.script (comment (ascii "S") (ascii "push"))) ∧
    Placed sampleDB sceneFS .boardList :=
  ⟨scene_ok _ _ (Or.inr (Or.inr (Or.inl ⟨_, _, scene_placed.1, rfl⟩))), placed_set sample_placed.2.2.1 sample_placed.2.2.1 _⟩

/-- A stop in the middle of a text: the file has a part of it, and the list has no record. -/
example : fileAt (((opening sceneFS (sceneScript Post.script .stop)).run sampleDB asciiCodec (List.replicate 5 (0, 0))).1.outage [(0, 3)])
    (at_ sampleDB (.article (ascii "S") newName)) = some (ascii "new") := by decide +kernel
example : firstName (listed sampleDB asciiCodec
    (((opening sceneFS (sceneScript Post.script .stop)).run sampleDB asciiCodec (List.replicate 5 (0, 0))).1.outage [(0, 3)]) (ascii "S")) = none := by
  decide +kernel

/-- A life. -/
example : Lives sampleDB asciiCodec sceneFS
    (((opening sceneFS (sceneScript Post.script .stop)).run sampleDB asciiCodec (List.replicate 11 (0, 0))).1.outage []) :=
  .more .none ⟨_, _, scene_ok Post.script .stop (Or.inl rfl), _, rfl⟩

end Verif
