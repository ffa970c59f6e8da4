import Verif.Props.ToolPost
import Verif.Props.Outage
/-!
# C134: the machine stops while articles are posted the way the tool does it
-/

namespace Verif
open Spec

/-- The disk after a stop does not depend on readers. -/
theorem alike_outage {who : Nat → Bool} {s s' : House} (h : Alike who s s') (cuts : List (Nat × Nat)) : s.outage cuts = s'.outage cuts := by
  unfold House.outage
  rw [h.fs]
  congr 1
  funext fs x
  cases hw : who x.1 with
  | false => rw [h.same x.1 hw]
  | true =>
    obtain ⟨h1, h2⟩ := h.looks x.1 hw
    rw [h2]
    cases hs : s.sessions x.1 with
    | idle t => rfl
    | busy j next =>
      rw [hs] at h1
      exact looks_halt (cwd := []) (ns := []) h1.1

/-- A finished article has grown. -/
theorem worn_safe {c : Codec} {placed : Obj → Prop} {posts : Nat → Option Post} {m : Holding} {past : List Event} {i : Atomic}
    {k : Nat → Bytes → Bytes → Prop} {name : Nat → Option Bytes} {order fin : List Nat} {n : Nat} {D D' : Holding}
    (hL : ToolLedger c placed posts m past i k name order fin) (hg : Ajar D i) (hw : Worn i n D D') {b f y : Bytes}
    (hy : i.hold (.article b f) = some y) : D' (.article b f) ≠ none ∧ (Safe posts m name fin b f → ∃ z, D' (.article b f) = some (y ++ z)) := by
  have h1 : D (.article b f) = some y := by
    rcases hg (.article b f) with e | ⟨p, op, next, _, hu⟩
    · rw [e, hy]
    · cases op with
      | writeArticle b' f' x => rw [hu.2.2] at hy; cases hy
      | addBoard => cases hu.1
      | addRecord => cases hu.1
      | writeDraft => cases hu.1
      | _ => exact hu.elim
  refine ⟨hw.some (by rw [h1]; simp), fun hs => ?_⟩
  rcases hw (.article b f) with e | ⟨d, x, e1, e2, _⟩ | ⟨_, _, p, op, next, ht, h2, h3⟩
  · exact ⟨[], by rw [e, h1, List.append_nil]⟩
  · rw [h1] at e1
    exact ⟨x, by rw [e2, Option.some.inj e1]⟩
  · exfalso
    rcases h3 with h3 | h3
    · cases op with
      | writeArticle b' f' x =>
        cases h2
        obtain ⟨P, hP, rfl, rfl, hn, _, hwr⟩ := tool_writes hL ht
        rcases hs with hs | ⟨q, hq, Q, hQ, hb, hn'⟩
        · exact hs (hL.fresh p P f hP hn)
        · have : p ≠ q := by rintro rfl; exact hwr hq
          exact hL.apart p q P Q f this hP hQ hb.symm hn hn'
      | _ => exact h3.elim
    · exact h3 none trivial

/-- What is known of the disk after a stop. -/
theorem tool_stopped {db : DB} {c : Codec} {fs : FS} {posts : Nat → Option Post} {script : Nat → Script} (hS : ToolScene db c fs posts script)
    (sched cuts : List (Nat × Nat)) :
    ∃ (who : Nat → Bool) (s : Atomic) (k : Nat → Bytes → Bytes → Prop) (name : Nat → Option Bytes) (order fin : List Nat) (D D' : Holding),
      (∀ p, who p = true → posts p = none ∧ Looker (script p)) ∧
      ToolLedger c (Placed db fs) posts (holdings db fs)
        (((opening fs script).run db c sched).2.filter (fun e => !who (ofClient e))) s k name order fin ∧
      ToolDiary posts (holdings db fs) (((opening fs script).run db c sched).2.filter (fun e => !who (ofClient e))) s name fin ∧
      (∀ p x, who p = false → (((opening fs script).run db c sched).1.sessions p = .idle x ↔ s.turn p = .idle x)) ∧
      Ajar D s ∧ Worn s cuts.length D D' ∧ Shows db fs (((opening fs script).run db c sched).1.outage cuts) D' := by
  obtain ⟨who, hwho, hS', hrem⟩ := tool_erased hS
  have hlook : ∀ p, who p = true → Looker (script p) := fun p hp => ((hwho p).mp hp).2
  obtain ⟨e1, e2, e3⟩ := C133_readers_leave_no_trace db c fs script who hlook sched
  obtain ⟨r1, r2⟩ := tool_race_free hS' hrem
  obtain ⟨marks, D, s, h1, h2, h3⟩ := pair_reached db c fs (without who script) sched r1 r2
  obtain ⟨l1, l2⟩ := tool_start (m := holdings db fs) hS'.lists (fun p P hP => (hS'.posters p P hP).1) hrem
  obtain ⟨k, name, order, fin, hL, hD⟩ := tool_run (fun p P hP => (hS.posters p P hP).2) h1 [] _ _ _ _ l1 l2
  obtain ⟨D', hsh, hw⟩ := worn_outage h3 (fun p op next ht => r2 s ⟨marks, h1⟩ p op next ht) cuts
  rw [List.nil_append, h2, ← e3] at hL hD
  refine ⟨who, s, k, name, order, fin, D, D', fun p hp => (hwho p).mp hp, hL, hD, ?_, h3.gap, hw, ?_⟩
  · intro p x hp
    rw [e2 p hp]
    exact (pair_idle h3).1 p x
  · rw [alike_outage (alike_run db c sched (alike_opening hlook)).1]
    exact hsh

/-- **C134, posts.** Any number of clients post articles the way the tool does it, others comment, and others read. Wherever the machine stops, in the
middle of whatever writes: every post whose client was told of the record is in its list and has a file of its own, with the whole text if the client
was through; what was there before is there. -/
theorem C134_tool_posts_survive {db : DB} {c : Codec} {fs : FS} {posts : Nat → Option Post} {script : Nat → Script}
    (hS : ToolScene db c fs posts script) (sched cuts : List (Nat × Nat)) :
    ToolRecovered db c fs posts ((opening fs script).run db c sched).1 ((opening fs script).run db c sched).2 cuts.length
      (((opening fs script).run db c sched).1.outage cuts) := by
  obtain ⟨who, s, k, name, order, fin, D, D', hwho, hL, _, hturn, hg, hw, hsh⟩ := tool_stopped hS sched cuts
  generalize hev : ((opening fs script).run db c sched).2 = ev at hL ⊢
  generalize hst : ((opening fs script).run db c sched).1 = st at hturn hsh ⊢
  have hposter : ∀ p P, posts p = some P → who p = false := by
    intro p P hP
    cases hp : who p with
    | false => rfl
    | true => rw [(hwho p hp).1] at hP; cases hP
  have seen : ∀ p r, who p = false → (.ret p r ∈ ev.filter (fun e => !who (ofClient e)) ↔ .ret p r ∈ ev) := by
    intro p r hp
    rw [List.mem_filter]
    simp [ofClient, hp]
  have hd : ∀ p P, posts p = some P → ∀ j, -2 ^ 63 ≤ (P.draw j).1 ∧ (P.draw j).1 < 2 ^ 63 := fun p P hP j => ((hS.posters p P hP).2.2 j).2
  have named : ∀ p ∈ order, ∀ P, posts p = some P → name p = some ((name p).getD []) := by
    intro p hp P hP
    have hs := hL.stages p P hP
    cases hn : name p with
    | some n => rfl
    | none =>
      rw [hn] at hs
      generalize ht : s.turn p = t at hs
      cases hs with
      | idle0 hl => exact absurd hp hl
      | called0 hl => exact absurd hp hl
      | failed hl => exact absurd hp hl
      | gone hl _ => exact absurd hp hl
  have entries : ∀ b, order.filterMap (entry c posts name b) =
      order.filterMap (fun p => (posts p).bind fun P => if P.board = b then some (storedArticle c (P.record ((name p).getD []))) else none) := by
    intro b
    refine filterMap_same fun p hp => ?_
    cases hP : posts p with
    | none => exact absurd hP (hL.only p hp)
    | some P =>
      unfold entry
      rw [hP, named p hp P hP]
      rfl
  refine ⟨order, fun p => (name p).getD [], hL.nodup, hL.only, ?_, ?_, ?_, ?_, ?_⟩
  · intro p P hP hr
    have hs := hL.stages p P hP
    rw [seen p _ (hposter p P hP), seen p _ (hposter p P hP)] at hs
    generalize name p = nm at hs
    generalize s.turn p = t at hs
    cases hs with
    | idle0 _ hd => exact absurd hr hd
    | called0 _ hd => exact absurd hr hd
    | failed _ hd => exact absurd hr hd
    | gone _ hd => exact absurd hr hd
    | decided1 _ hd => exact absurd hr hd
    | idle1 _ hd => exact absurd hr hd
    | called1 _ hd => exact absurd hr hd
    | decided2 hl => exact hl
    | idle2 hl => exact hl
    | called2 hl => exact hl
    | decided3 hl => exact hl
    | idle3 hl => exact hl
  · intro p P hP hsess hret
    have hs := hL.stages p P hP
    rw [(hturn p _ (hposter p P hP)).mp hsess, seen p _ (hposter p P hP)] at hs
    generalize hn : name p = nm at hs
    generalize ht : Turn.idle Script.stop = t at hs
    cases hs with
    | gone hl _ hg => exact absurd hg hret
    | idle3 hl => exact hl
    | _ => cases ht
  · intro b hpl
    obtain ⟨x, hx, e⟩ := worn_list hg hw b
    have h128 : 128 ∣ ((s.hold (.articleIndex b)).getD []).length := by
      cases ho : s.hold (.articleIndex b) with
      | none => exact ⟨0, rfl⟩
      | some d => exact (hL.listed b d hpl ho).1
    obtain ⟨begun, h4, h5⟩ := articlesIn_prefix c h128 hx
    refine ⟨begun, h4, ?_⟩
    have hcall := (call_step (c := c) hsh (.listArticles b) (fun o ho => by rw [show o = _ from ho]; exact hpl)).1
    unfold listed
    rw [hcall]
    simp only [intended]
    rw [e, h5, hL.lists b hpl, ← entries b]
  · intro p hp P hP
    have hn := named p hp P hP
    obtain ⟨j, hj⟩ := hL.drawn p P _ hP hn
    have hpl : Placed db fs (.article P.board ((name p).getD [])) := by rw [hj]; exact ((hS.posters p P hP).2.2 j).1
    refine ⟨stored_name ⟨j, hj⟩ (hd p P hP), hL.fresh p P _ hP hn, ?_, ?_⟩
    · intro q hq Q hQ hpq hbd e
      have e : (name p).getD [] = (name q).getD [] := e
      refine hL.apart p q P Q _ hpq hP hQ hbd hn ?_
      rw [named q hq Q hQ, ← e]
    · rw [shows_fileAt hsh hpl]
      obtain ⟨y, hy⟩ := Option.ne_none_iff_exists'.mp (hL.there p P _ hP hn)
      obtain ⟨w1, w2⟩ := worn_safe hL hg hw hy
      obtain ⟨y', hy'⟩ := Option.ne_none_iff_exists'.mp w1
      refine ⟨y', hy', fun hsess => ?_⟩
      have hs := hL.stages p P hP
      rw [(hturn p _ (hposter p P hP)).mp hsess] at hs
      have hfin : p ∈ fin := by
        generalize name p = nm at hs
        generalize ht : Turn.idle Script.stop = t at hs
        cases hs with
        | gone hl => exact absurd hp hl
        | idle3 _ hw => exact hw
        | _ => cases ht
      obtain ⟨z, hz⟩ := hL.texts p hfin P _ hP hn
      rw [hz] at hy
      cases hy
      obtain ⟨z', hz'⟩ := w2 (Or.inr ⟨p, hfin, P, hP, rfl, hn⟩)
      rw [hz'] at hy'
      cases hy'
      exact ⟨z ++ z', (List.append_assoc _ _ _).symm⟩
  · intro b f y0 hpl hy0
    obtain ⟨z, hz⟩ := hL.old b f y0 hy0
    obtain ⟨z', hz'⟩ := (worn_safe hL hg hw hz).2 (Or.inl (by rw [hy0]; simp))
    exact ⟨z ++ z', by rw [shows_fileAt hsh hpl, hz', List.append_assoc]⟩

/-- **C134, comments.** A comment that was accepted is there wherever the machine stops, if the article was finished when it was made. -/
theorem C134_comments_survive {db : DB} {c : Codec} {fs : FS} {posts : Nat → Option Post} {script : Nat → Script} (hS : ToolScene db c fs posts script)
    (sched cuts : List (Nat × Nat)) (h0 h1 h2 : List Event) (p : Nat) (b f x : Bytes) (hpl : Placed db fs (.article b f))
    (h : ((opening fs script).run db c sched).2 = h0 ++ .call p (.appendArticle b f x) :: h1 ++ .ret p (.ok .done) :: h2)
    (hno : ∀ op, .call p op ∉ h1) (hf : Finished (holdings db fs) h0 b f) :
    ∃ u v, fileAt (((opening fs script).run db c sched).1.outage cuts) (at_ db (.article b f)) = some (u ++ x ++ v) := by
  obtain ⟨who, s, k, name, order, fin, D, D', hwho, hL, hD, hturn, hg, hw, hsh⟩ := tool_stopped hS sched cuts
  obtain ⟨u, v, huv, hsafe⟩ := tool_kept sched hwho hD h hno hf
  obtain ⟨z, hz⟩ := (worn_safe hL hg hw huv).2 hsafe
  exact ⟨u, v ++ z, by rw [shows_fileAt hsh hpl, hz]; simp⟩

/-! ## Starting again -/

/-- No objects get or lose a place. -/
theorem tool_same_places {db : DB} {c : Codec} {fs : FS} {posts : Nat → Option Post} {script : Nat → Script} (hS : ToolScene db c fs posts script)
    (sched : List (Nat × Nat)) (o : Obj) : Placed db (((opening fs script).run db c sched).1.outage []) o ↔ Placed db fs o := by
  obtain ⟨who, s, k, name, order, fin, D, D', hwho, hL, hD, hturn, hg, hw, hsh⟩ := tool_stopped hS sched []
  exact placed_same hsh (fun q h => run_dirs db c q sched (opening fs script) h) o

/-- **C134, starting again.** If the machine stops, or the clients are killed, between two system calls, other clients can go on: the conditions of C133
and C134 hold again. -/
theorem C134_starts_again {db : DB} {c : Codec} {fs : FS} {posts : Nat → Option Post} {script : Nat → Script} (hS : ToolScene db c fs posts script)
    (sched : List (Nat × Nat)) (posts' : Nat → Option Post) (script' : Nat → Script)
    (hp : ∀ p P, posts' p = some P → script' p = P.toolScript ∧ Placed db fs (.articleIndex P.board) ∧
      ∀ j, Placed db fs (.article P.board (DB.articleName (P.draw j).1 (P.draw j).2)) ∧ -2 ^ 63 ≤ (P.draw j).1 ∧ (P.draw j).1 < 2 ^ 63)
    (hq : ∀ p, posts' p = none → Looker (script' p) ∨ Remarks (Placed db fs) (script' p) fun _ _ => False) :
    ToolScene db c (((opening fs script).run db c sched).1.outage []) posts' script' := by
  have same := tool_same_places hS sched
  obtain ⟨who, s, k, name, order, fin, D, D', hwho, hL, hD, hturn, hg, hw, hsh⟩ := tool_stopped hS sched []
  have heq : Placed db (((opening fs script).run db c sched).1.outage []) = Placed db fs := funext fun o => propext (same o)
  refine ⟨?_, ?_, ?_⟩
  · rw [heq]
    intro b d hb hd
    have hd : D' (.articleIndex b) = some d := (shows_fileAt hsh hb).symm.trans hd
    obtain ⟨x, hx, e⟩ := worn_list hg hw b
    have hx : x = [] := by simpa using hx
    rw [hx, List.append_nil, hd, Option.getD_some] at e
    subst e
    cases ho : s.hold (.articleIndex b) with
    | none => exact ⟨⟨0, rfl⟩, fun r hr => absurd hr (by simp [articlesIn, slots])⟩
    | some d => exact hL.listed b d hb ho
  · rw [heq]; exact hp
  · rw [heq]; exact hq

/-- **C134, any number of lives.** However often the machine stops between system calls and other clients go on: the lists keep their records, in
order, and the articles keep their texts. -/
theorem C134_lives {db : DB} {c : Codec} {fs fs' : FS} (h : ToolLives db c fs fs') :
    (∀ b, Placed db fs (.articleIndex b) → ∃ old more, listed db c fs b = .ok (.articles old) ∧ listed db c fs' b = .ok (.articles (old ++ more))) ∧
    ∀ b f y, Placed db fs (.article b f) → fileAt fs (at_ db (.article b f)) = some y → ∃ z, fileAt fs' (at_ db (.article b f)) = some (y ++ z) := by
  have places : ∀ {fs fs'}, ToolLives db c fs fs' → ∀ o, Placed db fs' o ↔ Placed db fs o := by
    intro fs fs' h
    induction h with
    | none => exact fun _ => Iff.rfl
    | more _ h' ih =>
      obtain ⟨posts, script, hS, sched, rfl⟩ := h'
      exact fun o => (tool_same_places hS sched o).trans (ih o)
  induction h with
  | none => exact ⟨fun b hb => ⟨_, [], listed_eq hb, by rw [List.append_nil, listed_eq hb]⟩, fun b f y _ hy => ⟨[], by rw [List.append_nil, hy]⟩⟩
  | @more fs' fs'' h h' ih =>
    have hpl := places h
    obtain ⟨posts, script, hS, sched, rfl⟩ := h'
    obtain ⟨order, name, -, -, -, -, h1, -, h2⟩ := C134_tool_posts_survive hS sched []
    refine ⟨?_, ?_⟩
    · intro b hb
      obtain ⟨old, more, e1, e2⟩ := ih.1 b hb
      obtain ⟨begun, _, e3⟩ := h1 b ((hpl _).mpr hb)
      rw [listed_eq ((hpl _).mpr hb)] at e2
      have e2 := Answer.articles.inj (Res.ok.inj e2)
      refine ⟨old, more ++ (order.filterMap (fun p => (posts p).bind fun P => if P.board = b then some (storedArticle c (P.record (name p))) else none) ++ begun),
        e1, ?_⟩
      rw [e3, e2]
      simp only [List.append_assoc]
    · intro b f y hb hy
      obtain ⟨z, hz⟩ := ih.2 b f y hb hy
      obtain ⟨z', hz'⟩ := h2 b f _ ((hpl _).mpr hb) hz
      exact ⟨z ++ z', by rw [hz', List.append_assoc]⟩

/-! ## Examples -/

/-- The machine stops while the text is written: the record is in the list, and the file has three bytes of the text. -/
example :
    let s := (opening sceneFS (sceneScript Post.toolScript .stop)).run sampleDB asciiCodec (List.replicate 9 (0, 0));
    fileAt (s.1.outage [(0, 3)]) (at_ sampleDB (.article (ascii "S") newName)) = some (ascii "new") ∧
    firstName (listed sampleDB asciiCodec (s.1.outage [(0, 3)]) (ascii "S")) = some newName ∧ s.2.filterMap wentWell = [0] := by decide +kernel

/-- The machine stops after a comment on a finished article. -/
example :
    let s := (opening sceneFS (sceneScript Post.toolScript (comment (ascii "S") (ascii "push")))).run sampleDB asciiCodec (List.replicate 12 (0, 0) ++ List.replicate 12 (1, 0));
    fileAt (s.1.outage [(0, 3), (1, 2)]) (at_ sampleDB (.article (ascii "S") newName)) = some (ascii "new textpush") := by decide +kernel

/-- A life: one client posts and is stopped. -/
example : ToolLives sampleDB asciiCodec sceneFS (((opening sceneFS (sceneScript Post.toolScript .stop)).run sampleDB asciiCodec (List.replicate 9 (0, 0))).1.outage []) :=
  .more .none ⟨scenePosts, _, scene_tool (scene_ok Post.toolScript .stop (Or.inl rfl)), _, rfl⟩

end Verif
