import Verif.Props.Search
import Verif.Props.Ansi
/-!
# C158: a comment that was just added

`AppendBoardArticleFile` (/repo/bbs.go:505-517) followed by the searches of /repo/bbs.go:585-698.
-/

namespace Verif
open Spec

namespace Spec

/-- A comment as it is written: owner, text and time in one short line without control sequences. -/
structure Remark (tag owner text : Bytes) (t : Civil) : Prop where
  noColon : (58 : UInt8) ∉ tag ∧ (58 : UInt8) ∉ text
  who : UserId owner
  time : CommentTime t
  line : (10 : UInt8) ∉ commentLine tag owner text t
  plain : Plain (commentLine tag owner text t)
  short : (commentLine tag owner text t).length < 65536

/-- **C158** in full: a comment that was added to an article is its last comment, with the next number, and the others stay. -/
def C158 : Prop := ∀ (db : DB) (fs fs' : FS) (b f tag owner text : Bytes) (t : Civil) (cs : List UserComment), Remark tag owner text t →
  db.boardArticleComments fs b f = .ok cs → db.appendBoardArticleFile fs b f (commentLine tag owner text t ++ [10]) = .ok fs' →
  db.boardArticleComments fs' b f = .ok (cs ++ [⟨UInt32.ofNat (cs.length + 1), t, owner, b, f, trimSpace text⟩])

end Spec

/-- One line more. -/
theorem C158_line (b f y line : Bytes) (cs : List UserComment) (hy : Ended y) (hl : ∀ l ∈ rawLines y, l.length < 65536)
    (hn : (10 : UInt8) ∉ line) (hs : line.length < 65536) (h : articleComments b f y = .ok cs) :
    (∀ o t x, parseUserComment (filterANSI (dropCR line)) = .ok (o, t, x) →
      articleComments b f (y ++ (line ++ [10])) = .ok (cs ++ [⟨UInt32.ofNat (cs.length + 1), t, o, b, f, x⟩])) ∧
    (parseUserComment (filterANSI (dropCR line)) = .err errNotUserComment → articleComments b f (y ++ (line ++ [10])) = .ok cs) ∧
    (¬ Readable (dropCR line) → ∀ cs', articleComments b f (y ++ (line ++ [10])) ≠ .ok cs') := by
  obtain ⟨h1, h2⟩ := (articleComments_exact _ _ _ _).mp h
  have e1 : (rawLines y).takeWhile (fun l => decide (l.length < 65536)) = rawLines y := takeWhile_all fun l hx => by simpa using hl l hx
  have e2 : (rawLines (y ++ (line ++ [10]))).takeWhile (fun l => decide (l.length < 65536)) = rawLines y ++ [line] := by
    rw [rawLines_ended y hy, rawLines_cons hn, rawLines_nil]
    refine takeWhile_all fun l hx => ?_
    rcases List.mem_append.mp hx with hx | hx
    · simpa using hl l hx
    · rw [List.mem_singleton.mp hx]; simpa using hs
  rw [e1] at h1 h2
  have hlen : cs.length = (((rawLines y).map dropCR).filterMap lineComment).length := by rw [h2]; simp [numbered]
  refine ⟨fun o t x hp => ?_, fun hp => ?_, fun hp cs' hc => ?_⟩
  · refine (articleComments_exact _ _ _ _).mpr ?_
    rw [e2, List.map_append]
    refine ⟨fun l hx => ?_, ?_⟩
    · rcases List.mem_append.mp hx with hx | hx
      · exact h1 l hx
      · rw [List.mem_singleton.mp hx]; exact .inl ⟨_, hp⟩
    · rw [List.filterMap_append, List.map_cons, List.map_nil, List.filterMap_cons_some (b := (o, t, x)) (by simp [lineComment, hp]), List.filterMap_nil]
      unfold numbered
      rw [List.mapIdx_append, hlen, h2]
      simp [numbered]
  · refine (articleComments_exact _ _ _ _).mpr ?_
    rw [e2, List.map_append]
    refine ⟨fun l hx => ?_, ?_⟩
    · rcases List.mem_append.mp hx with hx | hx
      · exact h1 l hx
      · rw [List.mem_singleton.mp hx]; exact .inr hp
    · rw [List.filterMap_append, List.map_cons, List.map_nil, List.filterMap_cons_none (by simp [lineComment, hp]), List.filterMap_nil, List.append_nil, h2]
  · have := ((articleComments_exact _ _ _ _).mp hc).1
    rw [e2, List.map_append] at this
    exact hp (this _ (List.mem_append_right _ (List.mem_singleton.mpr rfl)))

theorem dropCR_remark (tag owner text : Bytes) (t : Civil) : dropCR (commentLine tag owner text t) = commentLine tag owner text t := by
  have h : ∃ x a b, commentLine tag owner text t = x ++ [a, b] ∧ b ≠ 13 := by
    unfold commentLine
    rw [stamp_eq]
    refine ⟨tag ++ 32 :: (owner ++ 58 :: 32 :: (text ++ 32 :: (dec2 t.month ++ (47 :: (dec2 t.day ++ (32 :: (dec2 t.hour ++ [58]))))))), UInt8.ofNat (48 + t.min / 10 % 10), UInt8.ofNat (48 + t.min % 10),
      by simp only [dec2, List.append_assoc, List.cons_append, List.nil_append], ?_⟩
    intro e
    have := dec2_digits t.min 13 (by rw [← e]; simp [dec2])
    exact absurd this.1 (by decide)
  obtain ⟨x, a, b, e, hb⟩ := h
  unfold dropCR
  rw [e, if_neg]
  rw [List.getLast?_append]
  simpa using hb

theorem remark_parsed {tag owner text : Bytes} {t : Civil} (h : Remark tag owner text t) :
    parseUserComment (filterANSI (dropCR (commentLine tag owner text t))) = .ok (owner, t, trimSpace text) := by
  rw [dropCR_remark, C37_plain_unchanged _ h.plain]
  refine C39_parse_partial tag owner text t h.noColon.1 h.who (fun hx => h.line ?_) h.noColon.2 h.time
  unfold commentLine
  simp [hx]

/-- Reading an article that something was appended to. -/
theorem appended_read {db : DB} {fs fs' : FS} {b f x : Bytes} (h : db.appendBoardArticleFile fs b f x = .ok fs') :
    ∃ y, db.readBoardArticleFile fs b f = .ok y ∧ db.readBoardArticleFile fs' b f = .ok (y ++ x) := by
  unfold DB.appendBoardArticleFile at h
  obtain ⟨p, hp, h⟩ := Res.bind_eq_ok.mp h
  unfold FS.append at h
  obtain ⟨l, hl, h⟩ := Res.bind_eq_ok.mp h
  unfold DB.readBoardArticleFile
  rw [hp, Res.ok_bind, Res.ok_bind]
  revert h
  cases hg : fs.get l with
  | none => intro h; cases h
  | some n =>
    cases n with
    | dir => intro h; cases h
    | file y =>
      intro h
      have h := Res.ok.inj h
      refine ⟨y, by rw [FS.readFile_of hl, hg], ?_⟩
      rw [← h]
      exact FS.readFile_set hl (by rw [hg]; intro e; cases e)

/-- **C158.** What holds: if the last line of the article is finished and no line has 64 KiB, a comment added to it is the last one, with the next number;
the others stay. -/
theorem C158_partial (db : DB) (fs fs' : FS) (b f tag owner text y : Bytes) (t : Civil) (cs : List UserComment) (hr : Remark tag owner text t)
    (hy : db.readBoardArticleFile fs b f = .ok y) (he : Ended y) (hl : ∀ l ∈ rawLines y, l.length < 65536)
    (hc : db.boardArticleComments fs b f = .ok cs) (h : db.appendBoardArticleFile fs b f (commentLine tag owner text t ++ [10]) = .ok fs') :
    db.boardArticleComments fs' b f = .ok (cs ++ [⟨UInt32.ofNat (cs.length + 1), t, owner, b, f, trimSpace text⟩]) := by
  obtain ⟨y', h1, h2⟩ := appended_read h
  rw [hy] at h1
  have h1 := Res.ok.inj h1
  subst h1
  unfold DB.boardArticleComments at hc ⊢
  rw [hy, Res.ok_bind] at hc
  rw [h2, Res.ok_bind]
  exact (C158_line b f y _ cs he hl hr.line hr.short hc).1 _ _ _ (remark_parsed hr)

/-- Any number of comments. -/
theorem C158_many (db : DB) (b f : Bytes) (rs : List (Bytes × Bytes × Bytes × Civil)) : ∀ (fs fs' : FS) (y : Bytes) (cs : List UserComment),
    (∀ r ∈ rs, Remark r.1 r.2.1 r.2.2.1 r.2.2.2) → db.readBoardArticleFile fs b f = .ok y → Ended y → (∀ l ∈ rawLines y, l.length < 65536) →
    db.boardArticleComments fs b f = .ok cs →
    (rs.foldlM (fun s r => db.appendBoardArticleFile s b f (commentLine r.1 r.2.1 r.2.2.1 r.2.2.2 ++ [10])) fs) = .ok fs' →
    db.boardArticleComments fs' b f = .ok (cs ++ rs.mapIdx fun i r => ⟨UInt32.ofNat (cs.length + i + 1), r.2.2.2, r.2.1, b, f, trimSpace r.2.2.1⟩) := by
  induction rs with
  | nil =>
    intro fs fs' y cs _ _ _ _ hc h
    have h : fs = fs' := Res.ok.inj h
    rw [← h]
    simpa using hc
  | cons r rs ih =>
    intro fs fs' y cs hr hy he hl hc h
    rw [List.foldlM_cons] at h
    obtain ⟨s, h1, h2⟩ := Res.bind_eq_ok.mp h
    have hr0 := hr r (List.mem_cons_self ..)
    obtain ⟨y', g1, g2⟩ := appended_read h1
    rw [hy] at g1
    have g1 := Res.ok.inj g1
    subst g1
    have hc' := C158_partial db fs s b f _ _ _ y _ cs hr0 hy he hl hc h1
    have := ih s fs' _ _ (fun x hx => hr x (List.mem_cons_of_mem _ hx)) g2 (.inr ⟨y ++ commentLine r.1 r.2.1 r.2.2.1 r.2.2.2, by simp⟩) (by
      intro l hx
      rw [rawLines_ended y he, rawLines_cons hr0.line, rawLines_nil] at hx
      rcases List.mem_append.mp hx with hx | hx
      · exact hl l hx
      · rw [List.mem_singleton.mp hx]; exact hr0.short) hc' h2
    rw [this, List.mapIdx_cons]
    simp only [List.length_append, List.length_singleton, List.append_assoc, List.cons_append, List.nil_append, Nat.add_zero]
    congr 4
    funext i r
    rw [show cs.length + 1 + i + 1 = cs.length + (i + 1) + 1 by omega]

/-! ## An unfinished line -/

theorem sample_remark : Remark (ascii "Push") (ascii "BB") (ascii "ho") ⟨0, 11, 16, 12, 35, 0⟩ where
  noColon := by decide
  who := ⟨0x42, ascii "B", by decide, by decide, by decide, by decide⟩
  time := ⟨by decide, rfl, rfl⟩
  line := by decide
  plain := by decide
  short := by decide

/-- **C158 is false of the code**: a comment added to an article whose last line is not finished is lost in that line. -/
theorem C158_refuted : ¬ Spec.C158 := by
  intro h
  have hc : sampleDB.boardArticleComments (shelfFS firstPush) (ascii "S") shelfName =
      .ok [⟨1, ⟨0, 11, 16, 12, 34, 0⟩, ascii "AA", ascii "S", shelfName, ascii "hi"⟩] := by decide +kernel
  have ha : ∃ fs', sampleDB.appendBoardArticleFile (shelfFS firstPush) (ascii "S") shelfName
      (commentLine (ascii "Push") (ascii "BB") (ascii "ho") ⟨0, 11, 16, 12, 35, 0⟩ ++ [10]) = .ok fs' ∧
      sampleDB.boardArticleComments fs' (ascii "S") shelfName =
        .ok [⟨1, ⟨0, 11, 16, 12, 35, 0⟩, ascii "AA", ascii "S", shelfName, ascii "hi 11/16 1234Push BB:ho:"⟩] := by
    have hp : sampleDB.readBoardArticleFile (shelfFS firstPush) (ascii "S") shelfName = .ok firstPush := by decide +kernel
    cases ha : sampleDB.appendBoardArticleFile (shelfFS firstPush) (ascii "S") shelfName
        (commentLine (ascii "Push") (ascii "BB") (ascii "ho") ⟨0, 11, 16, 12, 35, 0⟩ ++ [10]) with
    | ok fs' =>
      refine ⟨fs', rfl, ?_⟩
      obtain ⟨y, h1, h2⟩ := appended_read ha
      rw [hp] at h1
      have h1 := Res.ok.inj h1
      subst h1
      unfold DB.boardArticleComments
      rw [h2, Res.ok_bind]
      decide +kernel
    | err e =>
      exfalso
      have : (match sampleDB.appendBoardArticleFile (shelfFS firstPush) (ascii "S") shelfName
        (commentLine (ascii "Push") (ascii "BB") (ascii "ho") ⟨0, 11, 16, 12, 35, 0⟩ ++ [10]) with | .ok _ => true | _ => false) = true := by decide +kernel
      rw [ha] at this; cases this
    | panic =>
      exfalso
      have : (match sampleDB.appendBoardArticleFile (shelfFS firstPush) (ascii "S") shelfName
        (commentLine (ascii "Push") (ascii "BB") (ascii "ho") ⟨0, 11, 16, 12, 35, 0⟩ ++ [10]) with | .ok _ => true | _ => false) = true := by decide +kernel
      rw [ha] at this; cases this
    | diverge =>
      exfalso
      have : (match sampleDB.appendBoardArticleFile (shelfFS firstPush) (ascii "S") shelfName
        (commentLine (ascii "Push") (ascii "BB") (ascii "ho") ⟨0, 11, 16, 12, 35, 0⟩ ++ [10]) with | .ok _ => true | _ => false) = true := by decide +kernel
      rw [ha] at this; cases this
  obtain ⟨fs', h1, h2⟩ := ha
  have := h sampleDB _ fs' _ _ _ _ _ _ _ sample_remark hc h1
  rw [h2] at this
  have := congrArg List.length (Res.ok.inj this)
  cases this

/-! ## Examples -/

/-- The article of `shelfFS` with one comment on a finished line. -/
example : sampleDB.readBoardArticleFile (shelfFS (firstPush ++ [10])) (ascii "S") shelfName = .ok (firstPush ++ [10]) ∧ Ended (firstPush ++ [10]) ∧
    (∀ l ∈ rawLines (firstPush ++ [10]), l.length < 65536) ∧
    sampleDB.boardArticleComments (shelfFS (firstPush ++ [10])) (ascii "S") shelfName =
      .ok [⟨1, ⟨0, 11, 16, 12, 34, 0⟩, ascii "AA", ascii "S", shelfName, ascii "hi"⟩] :=
  ⟨by decide +kernel, .inr ⟨_, rfl⟩, by decide +kernel, by decide +kernel⟩

/-! ## Exactly -/

theorem takeWhile_stop {α : Type} {p : α → Bool} {A X : List α} (h : ¬ ∀ a ∈ A, p a = true) : (A ++ X).takeWhile p = A.takeWhile p := by
  induction A with
  | nil => exact absurd (fun a ha => absurd ha List.not_mem_nil) h
  | cons a A ih =>
    by_cases ha : p a = true
    · rw [List.cons_append, List.takeWhile_cons_of_pos ha, List.takeWhile_cons_of_pos ha, ih]
      intro hA
      exact h fun x hx => by
        rcases List.mem_cons.mp hx with rfl | hx
        · exact ha
        · exact hA x hx
    · rw [List.cons_append, List.takeWhile_cons_of_neg ha, List.takeWhile_cons_of_neg ha]

theorem numbered_length (b f : Bytes) (l : List (Bytes × Civil × Bytes)) : (numbered b f l).length = l.length := by simp [numbered]

/-- **C158, exactly.** An article is finished lines and perhaps the beginning of another. A comment that is added becomes its last, with the next
number, while the others stay, iff all lines are seen (none has 64 KiB, nor has the line that the comment becomes part of), the beginning is no
comment itself, and the line that is made of both is read as the comment. -/
theorem C158_exact (db : DB) (fs fs' : FS) (b f tag owner text y p : Bytes) (t : Civil) (cs : List UserComment) (hr : Remark tag owner text t)
    (hy : db.readBoardArticleFile fs b f = .ok (y ++ p)) (he : Ended y) (hp : (10 : UInt8) ∉ p)
    (hc : db.boardArticleComments fs b f = .ok cs) (h : db.appendBoardArticleFile fs b f (commentLine tag owner text t ++ [10]) = .ok fs') :
    db.boardArticleComments fs' b f = .ok (cs ++ [⟨UInt32.ofNat (cs.length + 1), t, owner, b, f, trimSpace text⟩]) ↔
      (∀ l ∈ rawLines y, l.length < 65536) ∧ (p ++ commentLine tag owner text t).length < 65536 ∧ lineComment (dropCR p) = none ∧
      parseUserComment (filterANSI (dropCR (p ++ commentLine tag owner text t))) = .ok (owner, t, trimSpace text) := by
  obtain ⟨y', h1, h2⟩ := appended_read h
  rw [hy] at h1
  have h1 := Res.ok.inj h1
  subst h1
  unfold DB.boardArticleComments at hc ⊢
  rw [hy, Res.ok_bind] at hc
  rw [h2, Res.ok_bind]
  have hn : (10 : UInt8) ∉ p ++ commentLine tag owner text t := fun hx => (List.mem_append.mp hx).elim hp hr.line
  have e1 : rawLines (y ++ p) = rawLines y ++ rawLines p := rawLines_ended y he p
  have e2 : rawLines (y ++ p ++ (commentLine tag owner text t ++ [10])) = rawLines y ++ [p ++ commentLine tag owner text t] := by
    rw [List.append_assoc, ← List.append_assoc p, rawLines_ended y he, rawLines_cons hn, rawLines_nil]
  have e3 : rawLines p = if p = [] then [] else [p] := by
    split
    · next h => rw [h]; rfl
    · next h => exact rawLines_last hp h
  revert e2 hn
  generalize hz : p ++ commentLine tag owner text t = z
  intro hn e2
  have hpz : p.length ≤ z.length := by rw [← hz]; simp
  obtain ⟨c1, c2⟩ := (articleComments_exact _ _ _ _).mp hc
  by_cases hA : ∀ l ∈ rawLines y, l.length < 65536
  · have hA' : ∀ l ∈ rawLines y, decide (l.length < 65536) = true := fun l hl => by simpa using hA l hl
    rw [e1, e3, List.takeWhile_append_of_pos hA'] at c1 c2
    rw [articleComments_exact, e2, List.takeWhile_append_of_pos hA']
    have last : ∀ (X : List (Bytes × Civil × Bytes)) (r : Bytes × Civil × Bytes), numbered b f (X ++ [r]) =
        numbered b f X ++ [⟨UInt32.ofNat (X.length + 1), r.2.1, r.1, b, f, r.2.2⟩] := by
      intro X r
      unfold numbered
      rw [List.mapIdx_append]
      simp
    have old : lineComment (dropCR p) = none → z.length < 65536 →
        ((((if p = [] then [] else [p]) : List Bytes).takeWhile fun l => decide (l.length < 65536)).map dropCR).filterMap lineComment = [] := by
      intro hq hs
      split
      · rfl
      · rw [List.takeWhile_cons_of_pos (by simp; omega)]
        simp [hq]
    rw [List.map_append, List.filterMap_append] at c2
    rw [List.map_append, List.filterMap_append]
    generalize hX : ((rawLines y).map dropCR).filterMap lineComment = X at c2 ⊢
    constructor
    · rintro ⟨d1, d2⟩
      have hlen := congrArg List.length d2
      rw [List.length_append, c2, numbered_length, numbered_length, List.length_append, List.length_append, List.length_singleton] at hlen
      have hs : z.length < 65536 := by
        refine Decidable.by_contra fun hs => ?_
        rw [List.takeWhile_cons_of_neg (by simpa using hs)] at hlen
        simp at hlen
        omega
      rw [List.takeWhile_cons_of_pos (by simpa using hs), List.takeWhile_nil, List.map_cons, List.map_nil] at hlen d2
      cases hz' : lineComment (dropCR z) with
      | none =>
        rw [List.filterMap_cons_none hz'] at hlen
        simp at hlen
        omega
      | some r =>
        rw [List.filterMap_cons_some hz', List.filterMap_nil] at hlen d2
        have hq : lineComment (dropCR p) = none := by
          cases hq : lineComment (dropCR p) with
          | none => rfl
          | some q =>
            have hne : p ≠ [] := by
              rintro rfl
              rw [show lineComment (dropCR []) = none by decide] at hq
              cases hq
            rw [if_neg hne, List.takeWhile_cons_of_pos (by simp; omega), List.takeWhile_nil, List.map_cons, List.map_nil,
              List.filterMap_cons_some hq] at hlen
            simp at hlen
        refine ⟨hA, hs, hq, ?_⟩
        rw [old hq hs, List.append_nil] at c2
        rw [last, c2] at d2
        have := List.append_cancel_left d2
        obtain ⟨-, g1, g2, -, -, g3⟩ := UserComment.mk.inj (List.cons.inj this).1
        have hr' : r = (owner, t, trimSpace text) := by rw [g1, g2, g3]
        unfold lineComment at hz'
        split at hz'
        · next hp' => rw [hp', Option.some.inj hz', hr']
        · cases hz'
    · rintro ⟨-, hs, hq, hparse⟩
      rw [old hq hs, List.append_nil] at c2
      have hz' : lineComment (dropCR z) = some (owner, t, trimSpace text) := by simp [lineComment, hparse]
      rw [List.takeWhile_cons_of_pos (by simpa using hs), List.takeWhile_nil, List.map_cons, List.map_nil]
      refine ⟨fun l hl => ?_, ?_⟩
      · rcases List.mem_append.mp hl with hl | hl
        · exact c1 l (by rw [List.map_append]; exact List.mem_append_left _ hl)
        · rw [List.mem_singleton.mp hl]; exact .inl ⟨_, hparse⟩
      · rw [List.filterMap_cons_some hz', List.filterMap_nil, last, ← c2, c2, numbered_length]
  · have hA' : ¬ ∀ l ∈ rawLines y, decide (l.length < 65536) = true := fun h => hA fun l hl => by simpa using h l hl
    constructor
    · intro d
      obtain ⟨-, d2⟩ := (articleComments_exact _ _ _ _).mp d
      rw [e2, takeWhile_stop hA'] at d2
      rw [e1, takeWhile_stop hA'] at c2
      rw [← c2] at d2
      have := congrArg List.length d2
      simp at this
    · exact fun d => absurd d.1 hA

/-- C158_exact: an article whose last line is the beginning of something else; the comment is the last one, and it is found. -/
example : lineComment (dropCR (ascii "x ")) = none ∧
    parseUserComment (filterANSI (dropCR (ascii "x " ++ commentLine (ascii "Push") (ascii "BB") (ascii "ho") ⟨0, 11, 16, 12, 35, 0⟩))) =
      .ok (ascii "BB", ⟨0, 11, 16, 12, 35, 0⟩, trimSpace (ascii "ho")) := by decide +kernel

/-- And one that ends with a comment and without a newline: whatever is added, the claim fails. -/
example (fs' : FS) (cs : List UserComment) (hc : sampleDB.boardArticleComments (shelfFS firstPush) (ascii "S") shelfName = .ok cs)
    (h : sampleDB.appendBoardArticleFile (shelfFS firstPush) (ascii "S") shelfName
      (commentLine (ascii "Push") (ascii "BB") (ascii "ho") ⟨0, 11, 16, 12, 35, 0⟩ ++ [10]) = .ok fs') :
    sampleDB.boardArticleComments fs' (ascii "S") shelfName ≠
      .ok (cs ++ [⟨UInt32.ofNat (cs.length + 1), ⟨0, 11, 16, 12, 35, 0⟩, ascii "BB", ascii "S", shelfName, trimSpace (ascii "ho")⟩]) := fun e => by
  have := ((C158_exact sampleDB _ fs' _ _ _ _ _ [] firstPush _ cs sample_remark (by decide +kernel) (.inl rfl) (by decide +kernel) hc h).mp e).2.2.1
  revert this
  decide +kernel

end Verif
