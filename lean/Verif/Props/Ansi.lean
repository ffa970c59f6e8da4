import Verif.Proofs.Regexp
import Verif.Model.Comment
import Verif.Spec.Text
/-!
# C37, C38: filtering ANSI sequences
-/

namespace Verif
open Spec

/-! ## C37 -/

theorem unrunes_sublist {a b : List Rune} (h : a.Sublist b) : (unrunes a).Sublist (unrunes b) := by
  induction h with
  | slnil => exact List.Sublist.refl _
  | cons c _ ih => rw [unrunes_cons]; exact ih.trans (List.sublist_append_right _ _)
  | cons_cons c _ ih => rw [unrunes_cons, unrunes_cons]; exact (List.Sublist.refl _).append ih

/-- C37: the result is a subsequence of the input; nothing is invented or reordered. -/
theorem C37_subsequence (s : Bytes) : (filterANSI s).Sublist s := by
  have := unrunes_sublist (Rx.delete_sublist ansiRx (runes s))
  rwa [unrunes_runes] at this

theorem ansi_first_none {c : Rune} {cs : List Rune} (h : isEsc c.val = false) : ansiRx.first (c :: cs) = none := by
  unfold Rx.first ansiRx
  rw [Rx.seq_fail (Rx.cls_fail (by simpa using h))]
  rfl

theorem plain_runes {s : Bytes} (h : Plain s) : ∀ r ∈ runes s, isEsc r.val = false := by
  intro r hr
  rw [Bool.eq_false_iff]
  intro he
  simp only [isEsc, Bool.or_eq_true, beq_iff_eq] at he
  rcases he with he | he
  · obtain ⟨b, _, hb, e⟩ := rune_ascii_mem hr (by omega)
    subst e
    have : b = 0x1B := UInt8.toNat_inj.mp he
    subst this
    exact h.1 hb
  · obtain ⟨b0, b1, h2, hi, e⟩ := rune_two_mem hr (by omega) (by omega)
    obtain ⟨ev, c1, c2, c3, c4⟩ := ok2_val h2
    rw [e] at he
    simp only [ev] at he
    have e0 : b0 = 0xC2 := UInt8.toNat_inj.mp (by show b0.toNat = 0xC2; omega)
    have e1 : b1 = 0x9B := UInt8.toNat_inj.mp (by show b1.toNat = 0x9B; omega)
    subst e0; subst e1
    exact h.2 hi

theorem delete_plain_append {pre : List Rune} (h : ∀ r ∈ pre, isEsc r.val = false) (post : List Rune) :
    ansiRx.delete (pre ++ post) = pre ++ ansiRx.delete post := by
  apply Rx.delete_append_of_no_match
  intro a b e hb
  cases b with
  | nil => exact absurd rfl hb
  | cons r b => exact ansi_first_none (h r (by rw [e]; simp))

/-- C37: text without an escape introducer is unchanged. -/
theorem C37_plain_unchanged (s : Bytes) (h : Plain s) : filterANSI s = s := by
  unfold filterANSI
  have := delete_plain_append (plain_runes h) []
  rw [List.append_nil] at this
  rw [this, Rx.delete_nil, List.append_nil, unrunes_runes]

/-- Filtering plain text followed by an escape sequence. -/
theorem filter_plain_append {pre : Bytes} (h : Plain pre) (post : Bytes) :
    filterANSI (pre ++ 0x1B :: post) = pre ++ filterANSI (0x1B :: post) := by
  unfold filterANSI
  rw [runes_append_ascii _ _ (by decide), delete_plain_append (plain_runes h), unrunes_append, unrunes_runes]

/-! ### One colour sequence -/

theorem asciiRune_val (b : UInt8) : (asciiRune b).val = b.toNat := rfl

theorem isDigitV_of {b : UInt8} (h : Digit b) : isDigitV (asciiRune b).val = true := by
  simp only [isDigitV, inRange, asciiRune_val, Bool.and_eq_true, Nat.ble_eq]
  exact h

theorem alnum_iff (v : Nat) : isAlnumV v = true ↔
    (48 ≤ v ∧ v ≤ 57) ∨ (65 ≤ v ∧ v ≤ 90) ∨ (97 ≤ v ∧ v ≤ 122) := by
  simp only [isAlnumV, isAlphaV, isDigitV, inRange, Bool.or_eq_true, Bool.and_eq_true, Nat.ble_eq]
  omega

/-- Leading empty groups are semicolons. -/
theorem params_split (g : Bytes) (gs : List Bytes) (h : Params (g :: gs)) :
    ∃ k g' gs', g ++ gs.flatMap (0x3B :: ·) = List.replicate k 0x3B ++ (g' ++ gs'.flatMap (0x3B :: ·)) ∧
      Params (g' :: gs') ∧ (g' ≠ [] ∨ gs' = []) := by
  induction gs generalizing g with
  | nil => exact ⟨0, g, [], rfl, h, Or.inr rfl⟩
  | cons g1 gs ih =>
    by_cases hg : g = []
    · subst hg
      obtain ⟨k, g', gs', h1, h2, h3⟩ := ih g1 (fun x hx => h x (by simp [hx]))
      refine ⟨k + 1, g', gs', ?_, h2, h3⟩
      rw [List.flatMap_cons, List.nil_append, List.cons_append, h1, List.replicate_succ, List.cons_append]
    · exact ⟨0, g, g1 :: gs, rfl, h, Or.inl hg⟩

theorem groups_head (gs : List Bytes) (h : Params gs) (rest : List Rune)
    (hr : ∀ r ∈ rest.head?, isDigitV r.val = false ∧ (r.val == 0x3B) = false) :
    ((Rx.star (.seq (.chr 0x3B) (.upTo (.cls isDigitV) 4))).run
      ⟨(gs.flatMap (0x3B :: ·)).map asciiRune ++ rest, []⟩).head? = some ⟨rest, []⟩ := by
  induction gs with
  | nil =>
    apply Rx.star_head_stop
    exact Rx.seq_fail (Rx.cls_fail (fun r hr' => (hr r hr').2))
  | cons g gs ih =>
    obtain ⟨h1, h2⟩ := h g (by simp)
    have hg : ∀ r ∈ g.map asciiRune, isDigitV r.val = true := by
      intro r hr
      obtain ⟨b, hb, rfl⟩ := List.mem_map.mp hr
      exact isDigitV_of (h2 b hb)
    have hnext : ∀ r ∈ ((gs.flatMap (0x3B :: ·)).map asciiRune ++ rest).head?, isDigitV r.val = false := by
      intro r hr'
      cases gs with
      | nil => exact (hr r hr').1
      | cons x xs =>
        rw [List.flatMap_cons, List.cons_append, List.map_cons, List.cons_append, List.head?_cons] at hr'
        have : asciiRune 0x3B = r := by simpa using hr'
        subst this
        rfl
    refine Rx.star_head_step (t := ⟨(gs.flatMap (0x3B :: ·)).map asciiRune ++ rest, []⟩) ?_ ?_
      (ih (fun x hx => h x (by simp [hx])))
    · rw [List.flatMap_cons, List.cons_append, List.map_cons, List.map_append, List.cons_append, List.append_assoc]
      refine Rx.seq_head (Rx.cls_head rfl) ?_
      exact Rx.upTo_cls_head 4 _ _ _ hg (by simpa using h1) hnext
    · simp only [List.flatMap_cons, List.cons_append, List.map_cons, List.map_append, List.length_append,
        List.length_cons]
      omega

theorem csi_head (g : Bytes) (gs : List Bytes) (h : Params (g :: gs)) (hne : g ≠ [] ∨ gs = []) (rest : List Rune) :
    (csiRx.run ⟨(g ++ gs.flatMap (0x3B :: ·)).map asciiRune ++ asciiRune 0x6D :: rest, []⟩).head? = some ⟨rest, []⟩ := by
  unfold csiRx Rx.opt
  cases g with
  | nil =>
    have : gs = [] := by simpa using hne
    subst this
    refine Rx.seq_head (t := ⟨asciiRune 0x6D :: rest, []⟩) ?_ (Rx.cls_head rfl)
    apply Rx.alt_head_right
    · exact Rx.seq_fail (Rx.seq_fail (Rx.cls_fail (fun r hr => by
        have : asciiRune 0x6D = r := by simpa using hr
        subst this; rfl)))
    · rfl
  | cons d g =>
    obtain ⟨h1, h2⟩ := h (d :: g) (by simp)
    have hg : ∀ r ∈ g.map asciiRune, isDigitV r.val = true := by
      intro r hr
      obtain ⟨b, hb, rfl⟩ := List.mem_map.mp hr
      exact isDigitV_of (h2 b (by simp [hb]))
    refine Rx.seq_head (t := ⟨asciiRune 0x6D :: rest, []⟩) ?_ (Rx.cls_head rfl)
    apply Rx.alt_head_left
    refine Rx.seq_head (t := ⟨(gs.flatMap (0x3B :: ·)).map asciiRune ++ asciiRune 0x6D :: rest, []⟩) ?_ ?_
    · rw [List.cons_append, List.map_cons, List.map_append, List.cons_append, List.append_assoc]
      refine Rx.seq_head (Rx.cls_head (isDigitV_of (h2 d (by simp)))) ?_
      refine Rx.upTo_cls_head 3 _ _ _ hg (by simp at h1 ⊢; omega) ?_
      intro r hr'
      cases gs with
      | nil =>
        have : asciiRune 0x6D = r := by simpa using hr'
        subst this; rfl
      | cons x xs =>
        rw [List.flatMap_cons, List.cons_append, List.map_cons, List.cons_append, List.head?_cons] at hr'
        have : asciiRune 0x3B = r := by simpa using hr'
        subst this; rfl
    · apply groups_head gs (fun x hx => h x (by simp [hx]))
      intro r hr'
      have : asciiRune 0x6D = r := by simpa using hr'
      subst this
      exact ⟨rfl, rfl⟩

/-- A match of the first alternative is a run of letters, digits and semicolons, and BEL. -/
theorem bell_shape {s t : Rx.St} (h : t ∈ bellRx.run s) :
    ∃ x r, s.rest = x ++ r :: t.rest ∧ r.val = 7 ∧ ∀ q ∈ x, isAlnumV q.val = true ∨ q.val = 0x3B := by
  unfold bellRx at h
  obtain ⟨u, h1, h2⟩ := Rx.mem_seq.mp h
  obtain ⟨r, hr, e2, _⟩ := Rx.mem_cls h2
  have hr7 : r.val = 7 := by simpa using hr
  suffices hx : ∃ x, s.rest = x ++ u.rest ∧ ∀ q ∈ x, isAlnumV q.val = true ∨ q.val = 0x3B by
    obtain ⟨x, h3, h4⟩ := hx
    exact ⟨x, r, by rw [h3, e2], hr7, h4⟩
  unfold Rx.opt at h1
  rcases Rx.mem_alt.mp h1 with h1 | h1
  · obtain ⟨w, h3, h4⟩ := Rx.mem_seq.mp h1
    obtain ⟨x, h5, h6, _⟩ := Rx.mem_star_cls h3
    have key : ∃ y, w.rest = y ++ u.rest ∧ ∀ q ∈ y, isAlnumV q.val = true ∨ q.val = 0x3B := by
      refine Rx.star_induction (P := fun s t => ∃ y, s.rest = y ++ t.rest ∧ ∀ q ∈ y, isAlnumV q.val = true ∨ q.val = 0x3B)
        (fun s => ⟨[], rfl, by simp⟩) ?_ w u h4
      rintro a b c hab _ ⟨y, h7, h8⟩
      obtain ⟨a2, h9, h10⟩ := Rx.mem_seq.mp hab
      obtain ⟨r1, hr1, e3, _⟩ := Rx.mem_cls h9
      obtain ⟨z, h11, h12, _⟩ := Rx.mem_star_cls h10
      refine ⟨r1 :: z ++ y, by rw [e3, h11, h7]; simp, ?_⟩
      intro q hq
      rcases List.mem_append.mp hq with hq | hq
      · rcases List.mem_cons.mp hq with hq | hq
        · right; rw [hq]; simpa using hr1
        · left; exact h12 q hq
      · exact h8 q hq
    obtain ⟨y, h7, h8⟩ := key
    refine ⟨x ++ y, by rw [h5, h7]; simp, ?_⟩
    intro q hq
    rcases List.mem_append.mp hq with hq | hq
    · left; exact h6 q hq
    · exact h8 q hq
  · simp [Rx.run] at h1
    subst h1
    exact ⟨[], rfl, by simp⟩

theorem semi_stars (x rest : List Rune) (hx : ∀ q ∈ x, isAlnumV q.val = true ∨ q.val = 0x3B) :
    (⟨rest, []⟩ : Rx.St) ∈ (Rx.seq (.star (.cls isAlnumV)) (.star (.seq (.chr 0x3B) (.star (.cls isAlnumV))))).run
      ⟨x ++ rest, []⟩ := by
  induction x with
  | nil => exact Rx.mem_seq.mpr ⟨_, Rx.star_self _ _, Rx.star_self _ _⟩
  | cons q x ih =>
    obtain ⟨t, h1, h2⟩ := Rx.mem_seq.mp (ih (fun p hp => hx p (by simp [hp])))
    rcases hx q (by simp) with hq | hq
    · refine Rx.mem_seq.mpr ⟨t, Rx.star_step (t := ⟨x ++ rest, []⟩) ?_ (by simp) h1, h2⟩
      rw [List.cons_append, Rx.run_cls_cons, if_pos hq]; simp
    · refine Rx.mem_seq.mpr ⟨_, Rx.star_self _ _, Rx.star_step (t := t) ?_ ?_ h2⟩
      · refine Rx.mem_seq.mpr ⟨⟨x ++ rest, []⟩, ?_, h1⟩
        unfold Rx.chr
        rw [List.cons_append, Rx.run_cls_cons, if_pos (by simpa using hq)]; simp
      · have := (Rx.run_suffix _ _ _ h1).length_le
        simp at this ⊢; omega

/-- If the first alternative can match, it does, up to that BEL. -/
theorem bell_head (x : List Rune) (r : Rune) (rest : List Rune) (hx : ∀ q ∈ x, isAlnumV q.val = true ∨ q.val = 0x3B)
    (hr : r.val = 7) : ∃ c, (bellRx.run ⟨x ++ r :: rest, []⟩).head? = some ⟨rest, c⟩ := by
  have hm : (⟨rest, []⟩ : Rx.St) ∈ bellRx.run ⟨x ++ r :: rest, []⟩ := by
    unfold bellRx Rx.opt
    refine Rx.mem_seq.mpr ⟨_, Rx.mem_alt.mpr (Or.inl (semi_stars x _ hx)), ?_⟩
    unfold Rx.chr
    rw [Rx.run_cls_cons, if_pos (by simpa using hr)]; simp
  cases hl : bellRx.run ⟨x ++ r :: rest, []⟩ with
  | nil => rw [hl] at hm; simp at hm
  | cons t ts =>
    obtain ⟨y, r', h1, h2, h3⟩ := bell_shape (t := t) (s := ⟨x ++ r :: rest, []⟩) (by rw [hl]; simp)
    have hno : ∀ q : Rune, isAlnumV q.val = true ∨ q.val = 0x3B → q.val ≠ 7 := by
      intro q hq e
      rw [alnum_iff] at hq
      omega
    have heq : rest = t.rest := by
      simp only at h1
      clear hl hm
      induction x generalizing y with
      | nil =>
        cases y with
        | nil => injection h1
        | cons q y =>
          injection h1 with h4 _
          exact absurd (h4 ▸ hr) (hno q (h3 q (by simp)))
      | cons p x ih =>
        cases y with
        | nil =>
          injection h1 with h4 _
          exact absurd (h4 ▸ h2) (hno p (hx p (by simp)))
        | cons q y =>
          injection h1 with _ h4
          exact ih (fun a ha => hx a (by simp [ha])) y h4 (fun a ha => h3 a (by simp [ha]))
    exact ⟨t.caps, by rw [heq]; rfl⟩

theorem params_ascii {gs : List Bytes} (h : Params gs) : ∀ b ∈ gs.flatMap (0x3B :: ·), b < 0x80 := by
  intro b hb
  obtain ⟨g, hg, hb⟩ := List.mem_flatMap.mp hb
  rw [UInt8.lt_iff_toNat_lt]
  rcases List.mem_cons.mp hb with e | hb
  · subst e; decide
  · have := (h g hg).2 b hb
    exact Nat.lt_of_le_of_lt this.2 (by decide)

theorem params_ascii' {gs : List Bytes} (h : Params gs) : ∀ b ∈ params gs, b < 0x80 := by
  cases gs with
  | nil => simp [params]
  | cons g gs =>
    intro b hb
    rcases List.mem_append.mp hb with hb | hb
    · have := (h g (by simp)).2 b hb
      rw [UInt8.lt_iff_toNat_lt]
      exact Nat.lt_of_le_of_lt this.2 (by decide)
    · exact params_ascii (fun x hx => h x (by simp [hx])) b hb

theorem runes_colour {gs : List Bytes} (h : Params gs) (post : Bytes) : runes (colour gs ++ post) =
    asciiRune 0x1B :: asciiRune 0x5B :: ((params gs).map asciiRune ++ asciiRune 0x6D :: runes post) := by
  have e : colour gs ++ post = 0x1B :: 0x5B :: (params gs ++ 0x6D :: post) := by simp [colour]
  rw [e, runes_ascii_cons (by decide), runes_ascii_cons (by decide), runes_ascii_append (params_ascii' h),
    runes_ascii_cons (by decide)]

/-- What the expression makes of a colour sequence. -/
theorem colour_first {gs : List Bytes} (h : Params gs) (post : List Rune) :
    (∀ x r y, post = x ++ r :: y → (∀ q ∈ x, isAlnumV q.val = true ∨ q.val = 0x3B) → r.val = 7 →
      ∃ c, ansiRx.first (asciiRune 0x1B :: asciiRune 0x5B :: ((params gs).map asciiRune ++ asciiRune 0x6D :: post)) =
        some ⟨y, c⟩) ∧
    ((¬ ∃ x r y, post = x ++ r :: y ∧ (∀ q ∈ x, isAlnumV q.val = true ∨ q.val = 0x3B) ∧ r.val = 7) →
      ansiRx.first (asciiRune 0x1B :: asciiRune 0x5B :: ((params gs).map asciiRune ++ asciiRune 0x6D :: post)) =
        some ⟨post, []⟩) := by
  have hsplit : ∃ k g gs', params gs = List.replicate k 0x3B ++ (g ++ gs'.flatMap (0x3B :: ·)) ∧ Params (g :: gs') ∧
      (g ≠ [] ∨ gs' = []) := by
    cases gs with
    | nil => exact ⟨0, [], [], rfl, by simp [Params], Or.inr rfl⟩
    | cons g gs => exact params_split g gs h
  obtain ⟨k, g, gs', hp, hg, hne⟩ := hsplit
  have hQ : ∀ q ∈ (g ++ gs'.flatMap (0x3B :: ·)).map asciiRune, isAlnumV q.val = true ∨ q.val = 0x3B := by
    intro q hq
    obtain ⟨b, hb, rfl⟩ := List.mem_map.mp hq
    rw [alnum_iff, asciiRune_val]
    have hd : ∀ g0 ∈ g :: gs', ∀ b ∈ g0, Digit b := fun g0 hg0 => (hg g0 hg0).2
    rcases List.mem_append.mp hb with hb | hb
    · left; left; exact hd g (by simp) b hb
    · obtain ⟨g0, h0, hb⟩ := List.mem_flatMap.mp hb
      rcases List.mem_cons.mp hb with e | hb
      · right; rw [e]; rfl
      · left; left; exact hd g0 (by simp [h0]) b hb
  have hintro : ∀ rest : List Rune, ((Rx.star (.cls isIntro)).run ⟨asciiRune 0x5B :: ((params gs).map asciiRune ++
      asciiRune 0x6D :: rest), []⟩).head? =
      some ⟨(g ++ gs'.flatMap (0x3B :: ·)).map asciiRune ++ asciiRune 0x6D :: rest, []⟩ := by
    intro rest
    have e : asciiRune 0x5B :: ((params gs).map asciiRune ++ asciiRune 0x6D :: rest) =
        (asciiRune 0x5B :: List.replicate k (asciiRune 0x3B)) ++
          ((g ++ gs'.flatMap (0x3B :: ·)).map asciiRune ++ asciiRune 0x6D :: rest) := by
      rw [hp, List.map_append, List.map_replicate, List.cons_append, List.append_assoc]
    rw [e]
    apply Rx.star_cls_head
    · intro r hr
      rcases List.mem_cons.mp hr with e | hr
      · rw [e]; rfl
      · rw [List.eq_of_mem_replicate hr]; rfl
    · intro r hr
      cases g with
      | nil =>
        have : gs' = [] := by simpa using hne
        subst this
        have : asciiRune 0x6D = r := by simpa using hr
        subst this; rfl
      | cons d g =>
        have : asciiRune d = r := by simpa using hr
        subst this
        have hd := (hg (d :: g) (by simp)).2 d (by simp)
        unfold Digit at hd
        simp only [isIntro, asciiRune_val, Bool.or_eq_false_iff, beq_eq_false_iff_ne]
        omega
  constructor
  · intro x r y e hx hr
    obtain ⟨c, hc⟩ := bell_head ((g ++ gs'.flatMap (0x3B :: ·)).map asciiRune ++ asciiRune 0x6D :: x) r y (by
      intro q hq
      rcases List.mem_append.mp hq with hq | hq
      · exact hQ q hq
      · rcases List.mem_cons.mp hq with e | hq
        · left; rw [e]; rfl
        · exact hx q hq) hr
    refine ⟨c, ?_⟩
    unfold Rx.first ansiRx
    refine Rx.seq_head (Rx.cls_head rfl) (Rx.seq_head (hintro post) (Rx.alt_head_left ?_))
    rw [e]
    rw [List.append_assoc, List.cons_append] at hc
    exact hc
  · intro hno
    unfold Rx.first ansiRx
    refine Rx.seq_head (Rx.cls_head rfl) (Rx.seq_head (hintro post) (Rx.alt_head_right ?_ (csi_head g gs' hg hne post)))
    rw [List.eq_nil_iff_forall_not_mem]
    intro t ht
    obtain ⟨z, r, h1, h2, h3⟩ := bell_shape ht
    simp only at h1
    apply hno
    have hno7 : ∀ q : Rune, isAlnumV q.val = true ∨ q.val = 0x3B → q.val ≠ 7 := by
      intro q hq e
      rw [alnum_iff] at hq
      omega
    -- the run passes the whole sequence, so BEL is in `post`
    have hQ' : ∀ q ∈ (g ++ gs'.flatMap (0x3B :: ·)).map asciiRune ++ [asciiRune 0x6D], isAlnumV q.val = true ∨ q.val = 0x3B := by
      intro q hq
      rcases List.mem_append.mp hq with hq | hq
      · exact hQ q hq
      · left
        have : q = asciiRune 0x6D := by simpa using hq
        rw [this]; rfl
    have e2 : (g ++ gs'.flatMap (0x3B :: ·)).map asciiRune ++ asciiRune 0x6D :: post =
        ((g ++ gs'.flatMap (0x3B :: ·)).map asciiRune ++ [asciiRune 0x6D]) ++ post := by simp
    rw [e2] at h1
    revert h1 hQ'
    generalize (g ++ gs'.flatMap (0x3B :: ·)).map asciiRune ++ [asciiRune 0x6D] = w
    intro h1 hQ'
    clear hintro e2 hQ hp ht
    induction w generalizing z with
    | nil => exact ⟨z, r, t.rest, h1, h3, h2⟩
    | cons a w ih =>
      cases z with
      | nil =>
        injection h1 with h4 _
        exact absurd (h4 ▸ h2) (hno7 a (hQ' a (by simp)))
      | cons b z =>
        injection h1 with _ h4
        exact ih z (fun q hq => h3 q (by simp [hq])) h4 (fun q hq => hQ' q (by simp [hq]))

/-- `BellRun` in terms of runes. -/
theorem bellRun_runes {post : Bytes} {x : List Rune} {r : Rune} {y : List Rune} (e : runes post = x ++ r :: y)
    (hx : ∀ q ∈ x, isAlnumV q.val = true ∨ q.val = 0x3B) (hr : r.val = 7) :
    BellRun post (unrunes y) ∧ runes (unrunes y) = y := by
  have hasc : ∀ q ∈ x, ∃ b : UInt8, b < 0x80 ∧ q = asciiRune b := by
    intro q hq
    have hv : q.val < 0x80 := by
      have := hx q hq
      rw [alnum_iff] at this
      omega
    obtain ⟨b, h1, _, h2⟩ := rune_ascii_mem (s := post) (r := q) (by rw [e]; simp [hq]) hv
    exact ⟨b, h1, h2⟩
  have hr' : r = asciiRune 7 := by
    obtain ⟨b, h1, _, h2⟩ := rune_ascii_mem (s := post) (r := r) (by rw [e]; simp) (by omega)
    subst h2
    have : b = 7 := UInt8.toNat_inj.mp hr
    rw [this]
  obtain ⟨xb, hxb, hxa⟩ : ∃ xb : Bytes, x = xb.map asciiRune ∧ ∀ b ∈ xb, b < 0x80 := by
    clear e hx
    induction x with
    | nil => exact ⟨[], rfl, by simp⟩
    | cons q x ih =>
      obtain ⟨b, h1, h2⟩ := hasc q (by simp)
      obtain ⟨xb, h3, h4⟩ := ih (fun p hp => hasc p (by simp [hp]))
      refine ⟨b :: xb, by rw [h2, h3]; rfl, ?_⟩
      intro c hc
      rcases List.mem_cons.mp hc with e | hc
      · rw [e]; exact h1
      · exact h4 c hc
  subst hxb; subst hr'
  have epost : post = xb ++ 7 :: unrunes y := by
    rw [← unrunes_runes post, e, unrunes_append, unrunes_ascii, unrunes_cons]
    rfl
  refine ⟨⟨xb, epost, ?_⟩, ?_⟩
  · intro b hb
    have := hx (asciiRune b) (List.mem_map.mpr ⟨b, hb, rfl⟩)
    rw [alnum_iff, asciiRune_val] at this
    rcases this with h | h
    · exact Or.inl h
    · exact Or.inr (UInt8.toNat_inj.mp h)
  · have e2 := e
    rw [epost, runes_ascii_append hxa, runes_ascii_cons (by decide)] at e2
    have := List.append_cancel_left e2
    injection this

theorem runes_bellRun {post y : Bytes} (h : BellRun post y) : ∃ x r, runes post = x ++ r :: runes y ∧
    (∀ q ∈ x, isAlnumV q.val = true ∨ q.val = 0x3B) ∧ r.val = 7 := by
  obtain ⟨x, e, hx⟩ := h
  have hasc : ∀ b ∈ x, b < 0x80 := by
    intro b hb
    rw [UInt8.lt_iff_toNat_lt]
    show b.toNat < 128
    rcases hx b hb with h | h
    · unfold AlNum at h; omega
    · rw [h]; decide
  refine ⟨x.map asciiRune, asciiRune 7, ?_, ?_, rfl⟩
  · rw [e, runes_ascii_append hasc, runes_ascii_cons (by decide)]
  · intro q hq
    obtain ⟨b, hb, rfl⟩ := List.mem_map.mp hq
    rw [alnum_iff, asciiRune_val]
    rcases hx b hb with h | h
    · exact Or.inl h
    · right; rw [h]; rfl

/-- C37: a colour sequence is removed, and only it (unless what follows looks like the end of a BEL-terminated
sequence). -/
theorem C37_colour_removed (pre post : Bytes) (gs : List Bytes) (hp : Plain pre) (hg : Params gs)
    (hb : ∀ y, ¬ BellRun post y) : filterANSI (pre ++ colour gs ++ post) = pre ++ filterANSI post := by
  have e : pre ++ colour gs ++ post = pre ++ 0x1B :: ([0x5B] ++ params gs ++ [0x6D] ++ post) := by simp [colour]
  have e' : 0x1B :: ([0x5B] ++ params gs ++ [0x6D] ++ post) = colour gs ++ post := by simp [colour]
  rw [e, filter_plain_append hp, e']
  congr 1
  unfold filterANSI
  rw [runes_colour hg, Rx.delete_cons, (colour_first hg (runes post)).2 ?_]
  · simp only [List.length_cons, List.length_append]
    rw [if_pos (by omega)]
  · rintro ⟨x, r, y, h1, h2, h3⟩
    exact hb _ (bellRun_runes h1 h2 h3).1

/-- C37, the other case: a colour sequence followed by letters, digits, semicolons and BEL is removed together with that
text. -/
theorem C37_colour_bell (pre post y : Bytes) (gs : List Bytes) (hp : Plain pre) (hg : Params gs)
    (hb : BellRun post y) : filterANSI (pre ++ colour gs ++ post) = pre ++ filterANSI y := by
  have e : pre ++ colour gs ++ post = pre ++ 0x1B :: ([0x5B] ++ params gs ++ [0x6D] ++ post) := by simp [colour]
  have e' : 0x1B :: ([0x5B] ++ params gs ++ [0x6D] ++ post) = colour gs ++ post := by simp [colour]
  rw [e, filter_plain_append hp, e']
  congr 1
  unfold filterANSI
  obtain ⟨x, r, h1, h2, h3⟩ := runes_bellRun hb
  obtain ⟨c, hc⟩ := (colour_first hg (runes post)).1 x r (runes y) h1 h2 h3
  rw [runes_colour hg, Rx.delete_cons, hc]
  simp only [List.length_cons, List.length_append, h1]
  rw [if_pos (by omega)]

/-- Non-vacuity of C37: the sequence of the repository's own test, and text with both introducers absent. -/
example : Plain (ascii "-> ") ∧ Params [ascii "1", ascii "31"] ∧ (∀ y, ¬ BellRun (ascii ": ok") y) := by
  refine ⟨by decide, by decide, ?_⟩
  rintro y ⟨x, h1, h2⟩
  cases x with
  | nil => revert h1; simp [ascii]
  | cons b x =>
    have h3 := h2 b (by simp)
    injection h1 with h4 _
    subst h4
    revert h3
    decide

/-! ## C38 -/

/-- The full claim of C38. -/
def Spec.FilterIdempotent : Prop := ∀ s : Bytes, filterANSI (filterANSI s) = filterANSI s

/-- C38 is false of the code: removing the inner sequence of `ESC ESC[m [m` forms a new one. -/
theorem C38_idempotent_refuted : ¬ Spec.FilterIdempotent := by
  intro h
  have := h [0x1B, 0x1B, 0x5B, 0x6D, 0x5B, 0x6D]
  revert this
  decide +kernel

/-- C38 (partial: whenever no introducer is left, i.e. unless one sequence was nested in another or an introducer
started none). -/
theorem C38_idempotent_partial (s : Bytes) (h : Plain (filterANSI s)) : filterANSI (filterANSI s) = filterANSI s :=
  C37_plain_unchanged _ h

theorem coloured_no_bell (ps : List (List Bytes × Bytes)) (hg : ∀ p ∈ ps, Params p.1) (hb : ∀ p ∈ ps, (7 : UInt8) ∉ p.2) :
    (7 : UInt8) ∉ coloured ps := by
  induction ps with
  | nil => simp [coloured]
  | cons p ps ih =>
    obtain ⟨gs, t⟩ := p
    have h1 : (7 : UInt8) ∉ colour gs := by
      intro h7
      have hnot : ∀ g ∈ gs, (7 : UInt8) ∉ g := by
        intro g hgg h7
        have := (hg (gs, t) (by simp) g hgg).2 7 h7
        revert this; decide
      simp only [colour, List.mem_append, List.mem_cons, List.not_mem_nil, or_false] at h7
      rcases h7 with (h | h) | h
      · revert h; decide
      · cases gs with
        | nil => simp [params] at h
        | cons g gs =>
          simp only [params, List.mem_append, List.mem_flatMap, List.mem_cons] at h
          rcases h with h | ⟨g', h1, h | h⟩
          · exact hnot g (by simp) h
          · revert h; decide
          · exact hnot g' (by simp [h1]) h
      · revert h; decide
    simp only [coloured, List.mem_append]
    rintro ((h | h) | h)
    · exact h1 h
    · exact hb (gs, t) (by simp) h
    · exact ih (fun q hq => hg q (by simp [hq])) (fun q hq => hb q (by simp [hq])) h

theorem no_bellRun {s : Bytes} (h : (7 : UInt8) ∉ s) (y : Bytes) : ¬ BellRun s y := by
  rintro ⟨x, e, _⟩
  exact h (by rw [e]; simp)

/-- C37/C38 on whole texts: plain text with any number of colour sequences anywhere is filtered to exactly the text
(texts without BEL; each piece has no introducer), and filtering again changes nothing if the pieces put together form no
introducer either (two pieces could join to the encoding of U+009B). -/
theorem C38_coloured_text (t0 : Bytes) (ps : List (List Bytes × Bytes)) (h0 : Plain t0) (ht : ∀ p ∈ ps, Plain p.2)
    (hg : ∀ p ∈ ps, Params p.1) (hb : ∀ p ∈ ps, (7 : UInt8) ∉ p.2) :
    filterANSI (t0 ++ coloured ps) = t0 ++ ps.flatMap (·.2) ∧
    (Plain (t0 ++ ps.flatMap (·.2)) → filterANSI (t0 ++ ps.flatMap (·.2)) = t0 ++ ps.flatMap (·.2)) := by
  refine ⟨?_, C37_plain_unchanged _⟩
  induction ps generalizing t0 with
  | nil => simp [coloured, C37_plain_unchanged _ h0]
  | cons p ps ih =>
    obtain ⟨gs, t⟩ := p
    have e : t0 ++ coloured ((gs, t) :: ps) = t0 ++ colour gs ++ (t ++ coloured ps) := by simp [coloured]
    rw [e, C37_colour_removed t0 _ gs h0 (hg (gs, t) (by simp)) (no_bellRun ?_),
      ih t (ht (gs, t) (by simp)) (fun q hq => ht q (by simp [hq])) (fun q hq => hg q (by simp [hq]))
        (fun q hq => hb q (by simp [hq]))]
    · rfl
    · intro h
      rcases List.mem_append.mp h with h | h
      · exact hb (gs, t) (by simp) h
      · exact coloured_no_bell ps (fun q hq => hg q (by simp [hq])) (fun q hq => hb q (by simp [hq])) h

/-- Non-vacuity of C38. -/
example : Plain (ascii "-> ") ∧ (∀ p ∈ [([ascii "1", ascii "31"], ascii "pichu"), ([], ascii ": hi")], Plain p.2) ∧
    (∀ p ∈ [([ascii "1", ascii "31"], ascii "pichu"), ([], ascii ": hi")], Params p.1) ∧
    (∀ p ∈ [([ascii "1", ascii "31"], ascii "pichu"), (([] : List Bytes), ascii ": hi")], (7 : UInt8) ∉ p.2) ∧
    Plain (filterANSI (ascii "a" ++ colour [ascii "33"] ++ ascii "b")) := by
  decide +kernel

end Verif
