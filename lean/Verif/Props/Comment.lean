import Verif.Proofs.Strings
import Verif.Proofs.Time
import Verif.Props.Ansi
/-!
# C39: parsing a comment line
-/

namespace Verif
open Spec

/-- `MM/DD HH:MM`. -/
def Spec.stamp (t : Civil) : Bytes := timeFormat layoutComment t

/-- `<tag> <owner>: <text> <MM/DD HH:MM>`. -/
def Spec.commentLine (tag owner text : Bytes) (t : Civil) : Bytes :=
  tag ++ 32 :: (owner ++ 58 :: 32 :: (text ++ 32 :: stamp t))

/-- A user id: a letter followed by at least one letter or digit. -/
def Spec.UserId (u : Bytes) : Prop := ∃ c cs, u = c :: cs ∧ Alpha c ∧ cs ≠ [] ∧ ∀ b ∈ cs, AlNum b

/-- The time of a comment: a day and a minute, no year. -/
def Spec.CommentTime (t : Civil) : Prop := t.Valid ∧ t.year = 0 ∧ t.sec = 0

/-- The full claim of C39. -/
def Spec.CommentParsed : Prop :=
  ∀ (tag owner text : Bytes) (t : Civil), (58 : UInt8) ∉ tag → UserId owner → (10 : UInt8) ∉ text → CommentTime t →
    parseUserComment (commentLine tag owner text t) = .ok (owner, t, trimSpace text)

/-! ## The parts of a match -/

theorem owner_shape {s t : Rx.St} (h : t ∈ ownerRx.run s) :
    ∃ x, x ≠ [] ∧ s.rest = x ++ t.rest ∧ (∀ q ∈ x, isAlnumV q.val = true) ∧ t.caps = s.caps := by
  unfold ownerRx Rx.plus at h
  obtain ⟨u, h1, h2⟩ := Rx.mem_seq.mp h
  obtain ⟨w, h3, h4⟩ := Rx.mem_seq.mp h2
  obtain ⟨r, hr, e, c⟩ := Rx.mem_cls h1
  obtain ⟨r', hr', e', c'⟩ := Rx.mem_cls h3
  obtain ⟨x, e'', hx, c''⟩ := Rx.mem_star_cls h4
  refine ⟨r :: r' :: x, by simp, by rw [e, e', e'']; rfl, ?_, by rw [c'', c', c]⟩
  intro q hq
  rcases List.mem_cons.mp hq with h | hq
  · rw [h]; simp [isAlnumV, hr]
  · rcases List.mem_cons.mp hq with h | hq
    · rw [h]; exact hr'
    · exact hx q hq

/-- A comment match starts with letters and digits followed by a colon. -/
theorem comment_shape {s : List Rune} {t : Rx.St} (h : t ∈ commentRx.run ⟨s, []⟩) :
    ∃ x r y, x ≠ [] ∧ s = x ++ r :: y ∧ r.val = 58 ∧ ∀ q ∈ x, isAlnumV q.val = true := by
  unfold commentRx at h
  obtain ⟨u, h1, h2⟩ := Rx.mem_seq.mp h
  obtain ⟨w, h3, _⟩ := Rx.mem_seq.mp h2
  obtain ⟨r, hr, e, _⟩ := Rx.mem_cls h3
  simp only [Rx.run, List.mem_map] at h1
  obtain ⟨v, h4, h5⟩ := h1
  obtain ⟨x, h6, h7, h8, _⟩ := owner_shape h4
  subst h5
  exact ⟨x, r, w.rest, h6, by simp only at h7 e; rw [h7, e], by simpa using hr, h8⟩

theorem two_length {s t : Rx.St} (h : t ∈ twoDigits.run s) : s.rest.length = t.rest.length + 2 := by
  unfold twoDigits at h
  obtain ⟨u, h1, h2⟩ := Rx.mem_seq.mp h
  obtain ⟨_, _, e, _⟩ := Rx.mem_cls h1
  obtain ⟨_, _, e', _⟩ := Rx.mem_cls h2
  rw [e, e']; simp

theorem time_length {s t : Rx.St} (h : t ∈ timeRx.run s) : s.rest.length = t.rest.length + 11 := by
  unfold timeRx at h
  obtain ⟨a, h1, h⟩ := Rx.mem_seq.mp h
  obtain ⟨b, h2, h⟩ := Rx.mem_seq.mp h
  obtain ⟨c, h3, h⟩ := Rx.mem_seq.mp h
  obtain ⟨d, h4, h⟩ := Rx.mem_seq.mp h
  obtain ⟨e, h5, h⟩ := Rx.mem_seq.mp h
  obtain ⟨f, h6, h7⟩ := Rx.mem_seq.mp h
  have := two_length h1
  obtain ⟨_, _, e2, _⟩ := Rx.mem_cls h2
  have := two_length h3
  obtain ⟨_, _, e4, _⟩ := Rx.mem_cls h4
  have := two_length h5
  obtain ⟨_, _, e6, _⟩ := Rx.mem_cls h6
  have := two_length h7
  have e2 := congrArg List.length e2
  have e4 := congrArg List.length e4
  have e6 := congrArg List.length e6
  simp only [List.length_cons] at e2 e4 e6
  omega

theorem two_head {n : Nat} {rest : List Rune} {caps : List (Nat × List Rune)} :
    (twoDigits.run ⟨(dec2 n).map asciiRune ++ rest, caps⟩).head? = some ⟨rest, caps⟩ := by
  have hd : ∀ b ∈ dec2 n, isDigitV (asciiRune b).val = true := fun b hb => isDigitV_of (dec2_digits n b hb)
  unfold twoDigits
  simp only [dec2, List.map_cons, List.map_nil, List.cons_append, List.nil_append]
  exact Rx.seq_head (Rx.cls_head (hd _ (by simp [dec2]))) (Rx.cls_head (hd _ (by simp [dec2])))

theorem stamp_eq (t : Civil) : stamp t =
    dec2 t.month ++ (47 :: (dec2 t.day ++ (32 :: (dec2 t.hour ++ (58 :: dec2 t.min))))) := by
  simp [stamp, timeFormat, layoutComment, Chunk.format]

theorem stamp_ascii (t : Civil) : ∀ b ∈ stamp t, b < 0x80 ∧ b ≠ 10 := by
  have hd : ∀ n, ∀ b ∈ dec2 n, b < 0x80 ∧ b ≠ 10 := by
    intro n b hb
    have := dec2_digits n b hb
    refine ⟨?_, ?_⟩
    · rw [UInt8.lt_iff_toNat_lt]; exact Nat.lt_of_le_of_lt this.2 (by decide)
    · intro e; subst e; revert this; decide
  intro b hb
  rw [stamp_eq] at hb
  simp only [List.mem_append, List.mem_cons] at hb
  rcases hb with h | h | h | h | h | h | h
  · exact hd _ b h
  · subst h; decide
  · exact hd _ b h
  · subst h; decide
  · exact hd _ b h
  · subst h; decide
  · exact hd _ b h

theorem time_head (t : Civil) (caps : List (Nat × List Rune)) :
    (timeRx.run ⟨(stamp t).map asciiRune, caps⟩).head? = some ⟨[], caps⟩ := by
  rw [stamp_eq]
  simp only [List.map_append, List.map_cons]
  unfold timeRx
  have e : (dec2 t.min).map asciiRune = (dec2 t.min).map asciiRune ++ [] := by simp
  refine Rx.seq_head two_head (Rx.seq_head (Rx.cls_head rfl) (Rx.seq_head two_head (Rx.seq_head (Rx.cls_head rfl)
    (Rx.seq_head two_head (Rx.seq_head (Rx.cls_head rfl) ?_)))))
  rw [e]
  exact two_head

theorem drops_append (x z rest : List Rune) (caps : List (Nat × List Rune)) :
    ∃ l, Rx.drops (x ++ z) rest caps = Rx.drops z rest caps ++ l := by
  induction x with
  | nil => exact ⟨[], by simp⟩
  | cons r x ih =>
    obtain ⟨l, h⟩ := ih
    refine ⟨l ++ [⟨r :: (x ++ z) ++ rest, caps⟩], ?_⟩
    rw [List.cons_append, Rx.drops, h, List.append_assoc]

theorem cap_head {i : Nat} {a : Rx} {s t : Rx.St} (h : (a.run s).head? = some t) : ((Rx.cap i a).run s).head? =
    some { t with caps := (i, s.rest.take (s.rest.length - t.rest.length)) :: t.caps } := by
  simp only [Rx.run, List.head?_map, h, Option.map_some]

/-- Greedy `.*` followed by a time: the last time stamp of the line is taken. -/
theorem dots_head (x : List Rune) (t : Civil) (caps : List (Nat × List Rune)) (hx : ∀ r ∈ x, notNewline r.val = true) :
    ((Rx.seq (.star (.cls notNewline)) (.cap 2 timeRx)).run ⟨x ++ (stamp t).map asciiRune, caps⟩).head? =
      some ⟨[], (2, (stamp t).map asciiRune) :: caps⟩ := by
  have hall : ∀ r ∈ x ++ (stamp t).map asciiRune, notNewline r.val = true := by
    intro r hr
    rcases List.mem_append.mp hr with hr | hr
    · exact hx r hr
    · obtain ⟨b, hb, rfl⟩ := List.mem_map.mp hr
      have := (stamp_ascii t b hb).2
      simp only [notNewline, asciiRune_val, bne_iff_ne, ne_eq]
      intro e
      exact this (UInt8.toNat_inj.mp e)
  have e : (Rx.star (.cls notNewline)).run ⟨x ++ (stamp t).map asciiRune, caps⟩ =
      Rx.drops (x ++ (stamp t).map asciiRune) [] caps := by
    have := Rx.run_star_cls notNewline (x ++ (stamp t).map asciiRune) [] caps hall (by simp)
    rwa [List.append_nil] at this
  show (List.flatMap _ ((Rx.star (.cls notNewline)).run ⟨x ++ (stamp t).map asciiRune, caps⟩)).head? = _
  rw [e]
  obtain ⟨l, hl⟩ := drops_append x ((stamp t).map asciiRune) [] caps
  rw [hl]
  have hlen : (stamp t).length = 11 := by rw [stamp_eq]; simp [dec2]
  obtain ⟨r, rs, hz⟩ : ∃ r rs, (stamp t).map asciiRune = r :: rs := by
    cases h : (stamp t).map asciiRune with
    | nil => have := congrArg List.length h; simp [hlen] at this
    | cons r rs => exact ⟨r, rs, rfl⟩
  have hrs : rs.length = 10 := by
    have := congrArg List.length hz
    simp [hlen] at this; omega
  have hfail : (Rx.drops rs [] caps).flatMap (Rx.run (.cap 2 timeRx)) = [] := by
    rw [List.flatMap_eq_nil_iff]
    intro s hs
    obtain ⟨a, b, h1, h2⟩ := Rx.mem_drops.mp hs
    rw [List.eq_nil_iff_forall_not_mem]
    intro w hw
    simp only [Rx.run, List.mem_map] at hw
    obtain ⟨v, hv, _⟩ := hw
    have := time_length hv
    rw [h2] at this
    have h3 := congrArg List.length h1
    simp at this h3
    omega
  rw [hz, Rx.drops, List.append_assoc, List.flatMap_append, hfail, List.nil_append, List.singleton_append,
    List.flatMap_cons]
  apply Rx.head_append
  rw [List.append_nil, ← hz, cap_head (time_head t caps)]
  simp [List.take_of_length_le]

theorem alpha_alnum {b : UInt8} (h : Alpha b) : isAlphaV (asciiRune b).val = true := by
  simp only [isAlphaV, inRange, asciiRune_val, Bool.or_eq_true, Bool.and_eq_true, Nat.ble_eq]
  unfold Alpha at h
  omega

theorem userId_bytes {u : Bytes} (h : UserId u) : ∀ b ∈ u, AlNum b := by
  obtain ⟨c, cs, e, h1, _, h2⟩ := h
  subst e
  intro b hb
  rcases List.mem_cons.mp hb with hb | hb
  · subst hb; exact Or.inr h1
  · exact h2 b hb

theorem alnum_ascii {b : UInt8} (h : AlNum b) : b < 0x80 := by
  rw [UInt8.lt_iff_toNat_lt]
  show b.toNat < 128
  unfold AlNum at h; omega

theorem owner_head {u : Bytes} (h : UserId u) (rest : List Rune) (caps : List (Nat × List Rune)) :
    (ownerRx.run ⟨u.map asciiRune ++ asciiRune 58 :: rest, caps⟩).head? = some ⟨asciiRune 58 :: rest, caps⟩ := by
  obtain ⟨c, cs, e, h1, h2, h3⟩ := h
  subst e
  cases cs with
  | nil => exact absurd rfl h2
  | cons d ds =>
    have ha : ∀ b ∈ d :: ds, isAlnumV (asciiRune b).val = true := fun b hb => (alnum_iff _).mpr (h3 b hb)
    unfold ownerRx Rx.plus
    simp only [List.map_cons, List.cons_append]
    refine Rx.seq_head (Rx.cls_head (alpha_alnum h1)) (Rx.seq_head (Rx.cls_head (ha d (by simp))) ?_)
    apply Rx.star_cls_head
    · intro r hr
      obtain ⟨b, hb, rfl⟩ := List.mem_map.mp hr
      exact ha b (by simp [hb])
    · intro r hr
      have : asciiRune 58 = r := by simpa using hr
      subst this; rfl

/-- The match at the owner. -/
theorem comment_first {u : Bytes} (h : UserId u) (x : List Rune) (t : Civil) (hx : ∀ r ∈ x, notNewline r.val = true) :
    commentRx.first (u.map asciiRune ++ asciiRune 58 :: (x ++ (stamp t).map asciiRune)) =
      some ⟨[], [(2, (stamp t).map asciiRune), (1, u.map asciiRune)]⟩ := by
  unfold Rx.first commentRx
  refine Rx.seq_head (cap_head (owner_head h _ _)) ?_
  have e : (u.map asciiRune ++ asciiRune 58 :: (x ++ (stamp t).map asciiRune)).take
      ((u.map asciiRune ++ asciiRune 58 :: (x ++ (stamp t).map asciiRune)).length -
        (asciiRune 58 :: (x ++ (stamp t).map asciiRune)).length) = u.map asciiRune := by
    rw [List.length_append, Nat.add_sub_cancel, List.take_left']
    rfl
  simp only [e]
  exact Rx.seq_head (Rx.cls_head rfl) (dots_head x t _ hx)

/-- The runes of a comment line. -/
theorem runes_commentLine {tag owner text : Bytes} (t : Civil) (ho : UserId owner) :
    runes (commentLine tag owner text t) = (runes tag ++ [asciiRune 32]) ++ (owner.map asciiRune ++
      asciiRune 58 :: ((asciiRune 32 :: (runes text ++ [asciiRune 32])) ++ (stamp t).map asciiRune)) := by
  unfold commentLine
  rw [runes_append_ascii _ _ (by decide), runes_ascii_cons (by decide),
    runes_ascii_append (fun b hb => alnum_ascii (userId_bytes ho b hb)), runes_ascii_cons (by decide),
    runes_ascii_cons (by decide), runes_append_ascii _ _ (by decide), runes_ascii_cons (by decide),
    runes_ascii (fun b hb => (stamp_ascii t b hb).1)]
  simp

theorem no_match_in_tag {tag : Bytes} (ht : (58 : UInt8) ∉ tag) (post : List Rune) :
    ∀ a b, runes tag ++ [asciiRune 32] = a ++ b → b ≠ [] → commentRx.first (b ++ post) = none := by
  intro a b e hb
  unfold Rx.first
  rw [List.head?_eq_none_iff, List.eq_nil_iff_forall_not_mem]
  intro t ht'
  obtain ⟨x, r, y, hx, h1, h2, h3⟩ := comment_shape ht'
  -- `b` ends in a blank and has no colon
  have hcolon : ∀ q ∈ b, q.val ≠ 58 := by
    intro q hq hv
    have hm : q ∈ runes tag ++ [asciiRune 32] := by rw [e]; simp [hq]
    rcases List.mem_append.mp hm with hm | hm
    · obtain ⟨c, _, hc, e2⟩ := rune_ascii_mem hm (by omega)
      subst e2
      have : c = 58 := UInt8.toNat_inj.mp hv
      subst this
      exact ht hc
    · have : q = asciiRune 32 := by simpa using hm
      subst this
      exact absurd hv (by decide)
  have hlast : ∃ b', b = b' ++ [asciiRune 32] := by
    rcases List.eq_nil_or_concat b with h | ⟨b', c, h⟩
    · exact absurd h hb
    · refine ⟨b', ?_⟩
      rw [List.concat_eq_append] at h
      rw [h, ← List.append_assoc] at e
      have := List.append_inj_right' e (by simp)
      rw [h, ← this]
  obtain ⟨b', hb'⟩ := hlast
  have key : ∀ (b' x : List Rune), (∀ q ∈ b', q.val ≠ 58) → (∀ q ∈ x, isAlnumV q.val = true) →
      b' ++ [asciiRune 32] ++ post = x ++ r :: y → False := by
    intro b'
    induction b' with
    | nil =>
      intro x _ hx e
      cases x with
      | nil =>
        injection e with e1 _
        rw [← e1] at h2
        exact absurd h2 (by decide)
      | cons q x =>
        injection e with e1 _
        have := hx q (by simp)
        rw [← e1] at this
        revert this; decide
    | cons c b' ih =>
      intro x hc hx e
      cases x with
      | nil =>
        injection e with e1 _
        rw [← e1] at h2
        exact hc c (by simp) h2
      | cons q x =>
        injection e with _ e1
        exact ih x (fun p hp => hc p (by simp [hp])) (fun p hp => hx p (by simp [hp])) e1
  exact key b' x (fun q hq => hcolon q (by rw [hb']; simp [hq])) h3 (by rw [← hb', h1])

/-- C39, exact: whatever the text, the owner and the time are right, and the comment is what the splitting at the time
and at the colons makes of the rest. -/
theorem C39_parse_exact (tag owner text : Bytes) (t : Civil) (htag : (58 : UInt8) ∉ tag) (ho : UserId owner)
    (hx : (10 : UInt8) ∉ text) (ht : CommentTime t) :
    parseUserComment (commentLine tag owner text t) = .ok (owner, t,
      joinPieces (splitByte 58 (breakOn (stamp t) (owner ++ 58 :: 32 :: (text ++ 32 :: stamp t))).1)) := by
  have hnl : ∀ r ∈ asciiRune 32 :: (runes text ++ [asciiRune 32]), notNewline r.val = true := by
    intro r hr
    simp only [notNewline, bne_iff_ne, ne_eq]
    intro hv
    simp only [List.mem_cons, List.mem_append, List.not_mem_nil, or_false] at hr
    rcases hr with h | h | h
    · subst h; exact absurd hv (by decide)
    · obtain ⟨c, _, hc, e2⟩ := rune_ascii_mem h (by omega)
      subst e2
      have : c = 10 := UInt8.toNat_inj.mp hv
      subst this
      exact hx hc
    · subst h; exact absurd hv (by decide)
  have hfind : commentRx.find (runes (commentLine tag owner text t)) =
      some (owner.map asciiRune ++ asciiRune 58 :: ((asciiRune 32 :: (runes text ++ [asciiRune 32])) ++
        (stamp t).map asciiRune), ⟨[], [(2, (stamp t).map asciiRune), (1, owner.map asciiRune)]⟩) := by
    rw [runes_commentLine t ho, Rx.find_append_of_no_match (no_match_in_tag htag _)]
    have h1 := comment_first ho (asciiRune 32 :: (runes text ++ [asciiRune 32])) t hnl
    obtain ⟨c, cs, e, _⟩ := ho
    subst e
    simp only [List.map_cons, List.cons_append] at h1 ⊢
    rw [Rx.find, h1]
  have hne : owner.length ≠ 0 := by
    obtain ⟨c, cs, e, _⟩ := ho
    subst e; simp
  have hg0 : unrunes (Rx.group (owner.map asciiRune ++ asciiRune 58 :: ((asciiRune 32 :: (runes text ++ [asciiRune 32])) ++
        (stamp t).map asciiRune)) ⟨[], [(2, (stamp t).map asciiRune), (1, owner.map asciiRune)]⟩ 0) =
      owner ++ 58 :: 32 :: (text ++ 32 :: stamp t) := by
    have e : ∀ l : List Rune, Rx.group l ⟨[], [(2, (stamp t).map asciiRune), (1, owner.map asciiRune)]⟩ 0 = l := by
      intro l; simp [Rx.group]
    rw [e, unrunes_append, unrunes_ascii, unrunes_cons, unrunes_append, unrunes_cons, unrunes_append, unrunes_runes,
      unrunes_ascii]
    simp [unrunes, asciiRune]
  have hg1 : ∀ l : List Rune, unrunes (Rx.group l ⟨[], [(2, (stamp t).map asciiRune), (1, owner.map asciiRune)]⟩ 1) =
      owner := by
    intro l
    have : Rx.group l ⟨[], [(2, (stamp t).map asciiRune), (1, owner.map asciiRune)]⟩ 1 = owner.map asciiRune := by
      simp [Rx.group]
    rw [this, unrunes_ascii]
  have hg2 : ∀ l : List Rune, unrunes (Rx.group l ⟨[], [(2, (stamp t).map asciiRune), (1, owner.map asciiRune)]⟩ 2) =
      stamp t := by
    intro l
    have : Rx.group l ⟨[], [(2, (stamp t).map asciiRune), (1, owner.map asciiRune)]⟩ 2 = (stamp t).map asciiRune := by
      simp [Rx.group]
    rw [this, unrunes_ascii]
  unfold parseUserComment
  rw [hfind]
  simp only [hg0, hg1, hg2]
  rw [if_neg hne]
  have hp : timeParse layoutComment (stamp t) = .ok t := parse_format_comment t ht.1 ht.2.1 ht.2.2
  simp only [hp, Res.ok_bind]
  rw [if_neg (by simp)]

/-! ## Texts without a colon -/

theorem stamp_get (t : Civil) (i : Nat) : (stamp t)[i]? = some 58 ↔ i = 8 := by
  have hd : ∀ n, ∃ a b, dec2 n = [a, b] ∧ a ≠ 58 ∧ b ≠ 58 := by
    intro n
    refine ⟨_, _, rfl, ?_, ?_⟩
    all_goals
      intro e
      have := dec2_digits n 58 (by rw [← e]; simp [dec2])
      revert this; decide
  obtain ⟨a1, b1, e1, h1, k1⟩ := hd t.month
  obtain ⟨a2, b2, e2, h2, k2⟩ := hd t.day
  obtain ⟨a3, b3, e3, h3, k3⟩ := hd t.hour
  obtain ⟨a4, b4, e4, h4, k4⟩ := hd t.min
  rw [stamp_eq, e1, e2, e3, e4]
  simp only [List.cons_append, List.nil_append]
  match i with
  | 0 => simp [h1]
  | 1 => simp [k1]
  | 2 => simp
  | 3 => simp [h2]
  | 4 => simp [k2]
  | 5 => simp
  | 6 => simp [h3]
  | 7 => simp [k3]
  | 8 => simp
  | 9 => simp [h4]
  | 10 => simp [k4]
  | n + 11 => simp

theorem stamp_slash (t : Civil) : (stamp t)[2]? = some 47 := by
  rw [stamp_eq]; simp [dec2]

/-- The time stamp is not found before the end of the line. -/
theorem stamp_not_before {owner w : Bytes} (t : Civil) (ho : ∀ b ∈ owner, AlNum b) (hw : (58 : UInt8) ∉ w) :
    ∀ a z, owner ++ 58 :: w = a ++ z → z ≠ [] → ¬ stamp t <+: z ++ stamp t ++ [] := by
  rintro a z e hz ⟨k, hk⟩
  rw [List.append_nil] at hk
  have hlen : (stamp t).length = 11 := by rw [stamp_eq]; simp [dec2]
  have hget : ∀ i, i < 11 → (stamp t)[i]? = (z ++ stamp t)[i]? := by
    intro i hi
    rw [← hk, List.getElem?_append_left (by omega)]
  have h8 := hget 8 (by omega)
  rw [(stamp_get t 8).mpr rfl] at h8
  have hzl : 0 < z.length := List.length_pos_iff.mpr hz
  by_cases hl : 8 < z.length
  · have h2 := hget 2 (by omega)
    rw [stamp_slash] at h2
    rw [List.getElem?_append_left hl] at h8
    rw [List.getElem?_append_left (by omega)] at h2
    have h8' : (owner ++ 58 :: w)[a.length + 8]? = some 58 := by
      rw [e, List.getElem?_append_right (by omega), Nat.add_sub_cancel_left, ← h8]
    have h2' : (owner ++ 58 :: w)[a.length + 2]? = some 47 := by
      rw [e, List.getElem?_append_right (by omega), Nat.add_sub_cancel_left, ← h2]
    by_cases hlo : a.length + 8 < owner.length
    · rw [List.getElem?_append_left hlo] at h8'
      have := ho 58 (List.mem_of_getElem? h8')
      revert this; decide
    · by_cases heq : a.length + 8 = owner.length
      · rw [List.getElem?_append_left (by omega)] at h2'
        have := ho 47 (List.mem_of_getElem? h2')
        revert this; decide
      · rw [List.getElem?_append_right (by omega)] at h8'
        obtain ⟨d, hd⟩ : ∃ d, a.length + 8 - owner.length = d + 1 := ⟨a.length + 8 - owner.length - 1, by omega⟩
        rw [hd, List.getElem?_cons_succ] at h8'
        exact hw (List.mem_of_getElem? h8')
  · rw [List.getElem?_append_right (by omega)] at h8
    have := (stamp_get t _).mp h8.symm
    omega

/-- C39 for a text without a colon. What is missing for the full claim: texts with a colon, see `C39_colon_refuted`
and, for what is stored then, `C39_parse_exact`. -/
theorem C39_parse_partial (tag owner text : Bytes) (t : Civil) (htag : (58 : UInt8) ∉ tag) (ho : UserId owner)
    (hx : (10 : UInt8) ∉ text) (hc : (58 : UInt8) ∉ text) (ht : CommentTime t) :
    parseUserComment (commentLine tag owner text t) = .ok (owner, t, trimSpace text) := by
  have ha := userId_bytes ho
  have hcol : (58 : UInt8) ∉ owner := by
    intro h
    have := ha 58 h
    revert this; decide
  have hw : (58 : UInt8) ∉ 32 :: (text ++ [32]) := by simp [hc]
  rw [C39_parse_exact tag owner text t htag ho hx ht]
  have e : owner ++ 58 :: 32 :: (text ++ 32 :: stamp t) = (owner ++ 58 :: (32 :: (text ++ [32]))) ++ stamp t ++ [] := by
    simp
  have hs : stamp t ≠ [] := by
    intro h
    have := congrArg List.length h
    rw [stamp_eq] at this
    simp [dec2] at this
  rw [e, breakOn_eq _ _ _ hs (stamp_not_before t ha hw), splitByte_sep, splitByte_of_not_mem hcol,
    splitByte_of_not_mem hw]
  simp only [List.singleton_append, joinPieces, List.flatMap_nil, List.append_nil, trimSpace_padded]

example : CommentTime ⟨0, 2, 29, 23, 59, 0⟩ ∧ UserId (ascii "lex2") ∧ (58 : UInt8) ∉ ascii "Push" ∧
    (58 : UInt8) ∉ ascii " hello 01/02 " ∧ trimSpace (ascii " hello 01/02 ") = ascii "hello 01/02" ∧
    commentLine (ascii "Push") (ascii "lex2") (ascii " hello 01/02 ") ⟨0, 2, 29, 23, 59, 0⟩ =
      ascii "Push lex2:  hello 01/02  02/29 23:59" := by
  refine ⟨⟨by decide, rfl, rfl⟩, ⟨0x6C, ascii "ex2", by decide, by decide, by decide, by decide⟩, by decide, by decide, by decide, by decide⟩

theorem C39_witness : parseUserComment (commentLine (ascii "Push") (ascii "lex") (ascii "a:b") ⟨0, 2, 29, 23, 59, 0⟩) =
    .ok (ascii "lex", ⟨0, 2, 29, 23, 59, 0⟩, ascii "ab:") := by
  decide +kernel

/-- The full claim fails: `a:b` is stored as `ab:`. -/
theorem C39_colon_refuted : ¬ CommentParsed := by
  intro h
  have := h (ascii "Push") (ascii "lex") (ascii "a:b") ⟨0, 2, 29, 23, 59, 0⟩ (by decide)
    ⟨0x6C, ascii "ex", by decide, by decide, by decide, by decide⟩ (by decide) ⟨by decide, rfl, rfl⟩
  rw [C39_witness] at this
  revert this; decide

/-- A line that repeats its own time stamp loses the text in between. -/
theorem C39_stamp_cuts : parseUserComment (commentLine (ascii "Push") (ascii "lex") (ascii "x 02/29 23:59 y") ⟨0, 2, 29, 23, 59, 0⟩) =
    .ok (ascii "lex", ⟨0, 2, 29, 23, 59, 0⟩, ascii "x") := by
  decide +kernel

/-- A comment is never taken from a line without a colon. -/
theorem C39_not_comment (data : Bytes) (h : (58 : UInt8) ∉ data) : parseUserComment data = .err errNotUserComment := by
  have : commentRx.find (runes data) = none := by
    have key : ∀ l : List Rune, (∀ r ∈ l, r.val ≠ 58) → commentRx.find l = none := by
      have hf : ∀ l : List Rune, (∀ r ∈ l, r.val ≠ 58) → commentRx.first l = none := by
        intro l hl
        unfold Rx.first
        rw [List.head?_eq_none_iff, List.eq_nil_iff_forall_not_mem]
        intro t ht
        obtain ⟨x, r, y, _, h1, h2, _⟩ := comment_shape ht
        exact hl r (by rw [h1]; simp) h2
      intro l hl
      induction l with
      | nil => rw [Rx.find, hf [] hl]; rfl
      | cons c l ih =>
        rw [Rx.find, hf _ hl]
        exact ih (fun r hr => hl r (by simp [hr]))
    apply key
    intro r hr hv
    obtain ⟨c, _, hc, e2⟩ := rune_ascii_mem hr (by omega)
    subst e2
    have : c = 58 := UInt8.toNat_inj.mp hv
    subst this
    exact h hc
  unfold parseUserComment
  rw [this]

end Verif
