import Verif.Props.AnsiExact
import Verif.Props.Comment
import Verif.Props.Logins
/-!
# C84: exactly which lines are comments, and what is read from them
-/

namespace Verif
open Spec

/-! ## What a comment is -/

abbrev Spec.letters : String := "ABCDEFGHIJKLMNOPQRSTUVWXYZabcdefghijklmnopqrstuvwxyz"

abbrev Spec.lettersDigits : String := "0123456789ABCDEFGHIJKLMNOPQRSTUVWXYZabcdefghijklmnopqrstuvwxyz"

/-- `dd/dd dd:dd` where the blank may be any of tab, newline, form feed, carriage return and space. -/
def Spec.StampShape (z : List Rune) : Prop :=
  ∃ a b c d e f g h i j k, z = [a, b, c, d, e, f, g, h, i, j, k] ∧
    (OneOf digits a ∧ OneOf digits b) ∧ c.val = 47 ∧ (OneOf digits d ∧ OneOf digits e) ∧ OneOf "\t\n\x0c\r " f ∧
    (OneOf digits g ∧ OneOf digits h) ∧ i.val = 58 ∧ (OneOf digits j ∧ OneOf digits k)

/-- A letter and at least one letter or digit. -/
def Spec.OwnerShape (o : List Rune) : Prop :=
  ∃ a b cs, o = a :: b :: cs ∧ OneOf letters a ∧ ∀ q ∈ b :: cs, OneOf lettersDigits q

/-- The text starts with a comment: an owner `o`, a colon `c`, a body `mid` on the same line, a time stamp `z`; `post`
comes after. -/
def Spec.CommentAt (s o : List Rune) (c : Rune) (mid z post : List Rune) : Prop :=
  s = o ++ c :: (mid ++ (z ++ post)) ∧ OwnerShape o ∧ c.val = 58 ∧ (∀ q ∈ mid, q.val ≠ 10) ∧ StampShape z

/-- No comment starts at the front. -/
def Spec.NoComment (s : List Rune) : Prop := ∀ o c mid z post, ¬ CommentAt s o c mid z post

/-- The comment of a line: the leftmost, up to the last time stamp it reaches. -/
def Spec.CommentOf (s o : List Rune) (c : Rune) (mid z : List Rune) : Prop :=
  ∃ pre start post, s = pre ++ start ∧ CommentAt start o c mid z post ∧
    (∀ a b, pre = a ++ b → b ≠ [] → NoComment (b ++ start)) ∧
    ∀ o' c' mid' z' post', CommentAt start o' c' mid' z' post' → mid'.length ≤ mid.length

/-- The stored text: the body up to the first place where the time stamp's text appears, cut at the colons, the pieces
trimmed; every piece but the first is followed by a colon. -/
def Spec.TextOf (body st text : Bytes) : Prop :=
  ∃ (w rest p : Bytes) (ps : List Bytes), body = w ++ st ++ rest ∧ (∀ a z, w = a ++ z → z ≠ [] → ¬ st <+: z ++ st ++ rest) ∧
    w = p ++ ps.flatMap (58 :: ·) ∧ (58 : UInt8) ∉ p ∧ (∀ q ∈ ps, (58 : UInt8) ∉ q) ∧
    text = trimSpace p ++ ps.flatMap (fun q => trimSpace q ++ [58])

/-! ## Classes -/

theorem oneOf_letters (r : Rune) : isAlphaV r.val = true ↔ OneOf letters r := by
  have e : letters.toList.map Char.toNat = [65, 66, 67, 68, 69, 70, 71, 72,
    73, 74, 75, 76, 77, 78, 79, 80, 81, 82, 83, 84, 85, 86, 87, 88, 89, 90, 97, 98, 99, 100, 101, 102, 103, 104, 105,
    106, 107, 108, 109, 110, 111, 112, 113, 114, 115, 116, 117, 118, 119, 120, 121, 122] := by decide
  unfold OneOf
  rw [e]
  simp only [isAlphaV, inRange, Bool.or_eq_true, Bool.and_eq_true, Nat.ble_eq, List.mem_cons, List.not_mem_nil, or_false]
  omega

theorem oneOf_lettersDigits (r : Rune) : isAlnumV r.val = true ↔ OneOf lettersDigits r := by
  have e : lettersDigits.toList.map Char.toNat = [48, 49, 50, 51, 52, 53, 54, 55, 56, 57, 65, 66, 67, 68, 69, 70, 71, 72,
    73, 74, 75, 76, 77, 78, 79, 80, 81, 82, 83, 84, 85, 86, 87, 88, 89, 90, 97, 98, 99, 100, 101, 102, 103, 104, 105,
    106, 107, 108, 109, 110, 111, 112, 113, 114, 115, 116, 117, 118, 119, 120, 121, 122] := by decide
  unfold OneOf
  rw [e, alnum_iff]
  simp only [List.mem_cons, List.not_mem_nil, or_false]
  omega

theorem oneOf_space (r : Rune) : isSpaceV r.val = true ↔ OneOf "\t\n\x0c\r " r := by
  have e : "\t\n\x0c\r ".toList.map Char.toNat = [9, 10, 12, 13, 32] := by decide
  unfold OneOf
  rw [e]
  simp only [isSpaceV, Bool.or_eq_true, beq_iff_eq, List.mem_cons, List.not_mem_nil, or_false]
  omega

/-! ## All matches -/

theorem mem_cls_iff {p : Nat → Bool} {s t : Rx.St} :
    t ∈ (Rx.cls p).run s ↔ ∃ r, p r.val = true ∧ s.rest = r :: t.rest ∧ t.caps = s.caps :=
  ⟨Rx.mem_cls, fun ⟨_, h1, h2, h3⟩ => cls_mem h1 h2 h3⟩

theorem mem_two {s t : Rx.St} : t ∈ twoDigits.run s ↔
    ∃ a b, (OneOf digits a ∧ OneOf digits b) ∧ s.rest = a :: b :: t.rest ∧ t.caps = s.caps := by
  unfold twoDigits
  rw [Rx.mem_seq]
  constructor
  · rintro ⟨u, h1, h2⟩
    obtain ⟨a, ha, e, c⟩ := Rx.mem_cls h1
    obtain ⟨b, hb, e', c'⟩ := Rx.mem_cls h2
    exact ⟨a, b, ⟨(oneOf_digits a).mp ha, (oneOf_digits b).mp hb⟩, by rw [e, e'], by rw [c', c]⟩
  · rintro ⟨a, b, ⟨ha, hb⟩, e, c⟩
    exact ⟨⟨b :: t.rest, s.caps⟩, cls_mem ((oneOf_digits a).mpr ha) e rfl, cls_mem ((oneOf_digits b).mpr hb) rfl c⟩

theorem mem_time {s t : Rx.St} : t ∈ timeRx.run s ↔ ∃ z, StampShape z ∧ s.rest = z ++ t.rest ∧ t.caps = s.caps := by
  unfold timeRx
  constructor
  · intro h
    obtain ⟨s1, h1, h⟩ := Rx.mem_seq.mp h
    obtain ⟨s2, h2, h⟩ := Rx.mem_seq.mp h
    obtain ⟨s3, h3, h⟩ := Rx.mem_seq.mp h
    obtain ⟨s4, h4, h⟩ := Rx.mem_seq.mp h
    obtain ⟨s5, h5, h⟩ := Rx.mem_seq.mp h
    obtain ⟨s6, h6, h7⟩ := Rx.mem_seq.mp h
    obtain ⟨a, b, hab, e1, c1⟩ := mem_two.mp h1
    obtain ⟨c, hc, e2, c2⟩ := Rx.mem_cls h2
    obtain ⟨d, e, hde, e3, c3⟩ := mem_two.mp h3
    obtain ⟨f, hf, e4, c4⟩ := Rx.mem_cls h4
    obtain ⟨g, h, hgh, e5, c5⟩ := mem_two.mp h5
    obtain ⟨i, hi, e6, c6⟩ := Rx.mem_cls h6
    obtain ⟨j, k, hjk, e7, c7⟩ := mem_two.mp h7
    refine ⟨[a, b, c, d, e, f, g, h, i, j, k], ⟨a, b, c, d, e, f, g, h, i, j, k, rfl, hab, by simpa using hc, hde,
      (oneOf_space f).mp hf, hgh, by simpa using hi, hjk⟩, ?_, ?_⟩
    · rw [e1, e2, e3, e4, e5, e6, e7]; rfl
    · rw [c7, c6, c5, c4, c3, c2, c1]
  · rintro ⟨z, ⟨a, b, c, d, e, f, g, h, i, j, k, rfl, hab, hc, hde, hf, hgh, hi, hjk⟩, e, hcaps⟩
    refine Rx.mem_seq.mpr ⟨⟨c :: d :: _ :: f :: g :: h :: i :: j :: k :: t.rest, s.caps⟩, mem_two.mpr ⟨a, b, hab, e, rfl⟩, ?_⟩
    refine Rx.mem_seq.mpr ⟨⟨d :: _ :: f :: g :: h :: i :: j :: k :: t.rest, s.caps⟩, cls_mem (by simpa using hc) rfl rfl, ?_⟩
    refine Rx.mem_seq.mpr ⟨⟨f :: g :: h :: i :: j :: k :: t.rest, s.caps⟩, mem_two.mpr ⟨d, _, hde, rfl, rfl⟩, ?_⟩
    refine Rx.mem_seq.mpr ⟨⟨g :: h :: i :: j :: k :: t.rest, s.caps⟩, cls_mem ((oneOf_space f).mpr hf) rfl rfl, ?_⟩
    refine Rx.mem_seq.mpr ⟨⟨i :: j :: k :: t.rest, s.caps⟩, mem_two.mpr ⟨g, h, hgh, rfl, rfl⟩, ?_⟩
    refine Rx.mem_seq.mpr ⟨⟨j :: k :: t.rest, s.caps⟩, cls_mem (by simpa using hi) rfl rfl, ?_⟩
    exact mem_two.mpr ⟨j, k, hjk, rfl, hcaps⟩

theorem mem_star_cls_iff {p : Nat → Bool} {s t : Rx.St} : t ∈ (Rx.star (.cls p)).run s ↔
    ∃ x, s.rest = x ++ t.rest ∧ (∀ r ∈ x, p r.val = true) ∧ t.caps = s.caps := by
  refine ⟨Rx.mem_star_cls, ?_⟩
  rintro ⟨x, e, hx, c⟩
  obtain ⟨_, _⟩ := s; obtain ⟨_, _⟩ := t
  simp only at e c
  subst e; subst c
  exact Rx.star_cls_mem _ _ _ hx

theorem mem_owner {s t : Rx.St} : t ∈ ownerRx.run s ↔ ∃ o, OwnerShape o ∧ s.rest = o ++ t.rest ∧ t.caps = s.caps := by
  unfold ownerRx Rx.plus
  constructor
  · intro h
    obtain ⟨u, h1, h2⟩ := Rx.mem_seq.mp h
    obtain ⟨w, h3, h4⟩ := Rx.mem_seq.mp h2
    obtain ⟨a, ha, e, c⟩ := Rx.mem_cls h1
    obtain ⟨b, hb, e', c'⟩ := Rx.mem_cls h3
    obtain ⟨x, e'', hx, c''⟩ := Rx.mem_star_cls h4
    refine ⟨a :: b :: x, ⟨a, b, x, rfl, (oneOf_letters a).mp ha, ?_⟩, by rw [e, e', e'']; rfl, by rw [c'', c', c]⟩
    intro q hq
    rcases List.mem_cons.mp hq with h | h
    · rw [h]; exact (oneOf_lettersDigits b).mp hb
    · exact (oneOf_lettersDigits q).mp (hx q h)
  · rintro ⟨o, ⟨a, b, x, rfl, ha, hx⟩, e, c⟩
    refine Rx.mem_seq.mpr ⟨⟨b :: x ++ t.rest, s.caps⟩, cls_mem ((oneOf_letters a).mpr ha) e rfl, ?_⟩
    refine Rx.mem_seq.mpr ⟨⟨x ++ t.rest, s.caps⟩, cls_mem ((oneOf_lettersDigits b).mpr (hx b (by simp))) rfl rfl, ?_⟩
    exact mem_star_cls_iff.mpr ⟨x, rfl, fun q hq => (oneOf_lettersDigits q).mpr (hx q (by simp [hq])), c⟩

theorem mem_cap {i : Nat} {r : Rx} {s t : Rx.St} : t ∈ (Rx.cap i r).run s ↔
    ∃ u, u ∈ r.run s ∧ t = { u with caps := (i, s.rest.take (s.rest.length - u.rest.length)) :: u.caps } := by
  simp only [Rx.run, List.mem_map]
  constructor <;> (rintro ⟨u, h1, h2⟩; exact ⟨u, h1, h2.symm⟩)

theorem take_front (x y : List Rune) : (x ++ y).take ((x ++ y).length - y.length) = x := by
  rw [List.length_append, Nat.add_sub_cancel, List.take_left']
  rfl

theorem mem_comment {s : List Rune} {t : Rx.St} : t ∈ commentRx.run ⟨s, []⟩ ↔
    ∃ o c mid z, CommentAt s o c mid z t.rest ∧ t.caps = [(2, z), (1, o)] := by
  unfold commentRx
  constructor
  · intro h
    obtain ⟨s1, h1, h⟩ := Rx.mem_seq.mp h
    obtain ⟨s2, h2, h⟩ := Rx.mem_seq.mp h
    obtain ⟨s3, h3, h4⟩ := Rx.mem_seq.mp h
    obtain ⟨u1, hu1, rfl⟩ := mem_cap.mp h1
    obtain ⟨o, ho, e1, c1⟩ := mem_owner.mp hu1
    obtain ⟨c, hc, e2, c2⟩ := Rx.mem_cls h2
    obtain ⟨mid, e3, hm, c3⟩ := Rx.mem_star_cls h3
    obtain ⟨u2, hu2, rfl⟩ := mem_cap.mp h4
    obtain ⟨z, hz, e4, c4⟩ := mem_time.mp hu2
    simp only at e1 e2 c1 c2
    refine ⟨o, c, mid, z, ⟨by rw [e1, e2, e3, e4], ho, by simpa using hc, ?_, hz⟩, ?_⟩
    · intro q hq
      have := hm q hq
      simpa [notNewline] using this
    · simp only
      rw [c4, c3, c2, c1, e4, take_front, e1, take_front]
  · rintro ⟨o, c, mid, z, ⟨e, ho, hc, hm, hz⟩, hcaps⟩
    refine Rx.mem_seq.mpr ⟨⟨c :: (mid ++ (z ++ t.rest)), [(1, o)]⟩, mem_cap.mpr ⟨⟨c :: (mid ++ (z ++ t.rest)), []⟩,
      mem_owner.mpr ⟨o, ho, e, rfl⟩, ?_⟩, ?_⟩
    · simp only
      rw [e, take_front]
    refine Rx.mem_seq.mpr ⟨⟨mid ++ (z ++ t.rest), [(1, o)]⟩, cls_mem (by simpa using hc) rfl rfl, ?_⟩
    refine Rx.mem_seq.mpr ⟨⟨z ++ t.rest, [(1, o)]⟩, mem_star_cls_iff.mpr ⟨mid, rfl, ?_, rfl⟩, ?_⟩
    · intro q hq
      simpa [notNewline] using hm q hq
    · refine mem_cap.mpr ⟨⟨t.rest, [(1, o)]⟩, mem_time.mpr ⟨z, hz, rfl, rfl⟩, ?_⟩
      simp only [take_front]
      obtain ⟨_, _⟩ := t
      simp_all

/-! ## The longest body comes first -/

theorem star_cls_shrinks (p : Nat → Bool) (s : Rx.St) : ((Rx.star (.cls p)).run s).Pairwise fun a b =>
    a.rest.length < b.rest.length ∧ ∃ d ∈ b.rest.head?, p d.val = true := by
  induction hn : s.rest.length using Nat.strongRecOn generalizing s with
  | _ n ih =>
    subst hn
    rw [Rx.run_star]
    obtain ⟨rest, caps⟩ := s
    cases rest with
    | nil => simp [Rx.run]
    | cons r rs =>
      rw [Rx.run_cls_cons]
      split
      · rename_i hr
        have e : List.filter (fun t : Rx.St => decide (t.rest.length < (r :: rs).length)) [(⟨rs, caps⟩ : Rx.St)] =
            [⟨rs, caps⟩] := by simp
        simp only [e, List.flatMap_cons, List.flatMap_nil, List.append_nil]
        rw [List.pairwise_append]
        refine ⟨ih _ (by simp) _ rfl, by simp, ?_⟩
        intro a ha b hb
        have : b = ⟨r :: rs, caps⟩ := by simpa using hb
        subst this
        have := mem_length ha
        refine ⟨?_, r, rfl, hr⟩
        simp only [List.length_cons] at this ⊢
        omega
      · simp

theorem cls_flatMap {p : Nat → Bool} {f : Rx.St → List Rx.St} {R : Rx.St → Rx.St → Prop} {s : Rx.St}
    (h : ∀ t, (f t).Pairwise R) : (((Rx.cls p).run s).flatMap f).Pairwise R := by
  obtain ⟨rest, caps⟩ := s
  cases rest with
  | nil => simp [Rx.run]
  | cons r rs =>
    rw [Rx.run_cls_cons]
    split
    · rw [List.flatMap_cons, List.flatMap_nil, List.append_nil]; exact h _
    · simp

theorem owner_shrinks (s : Rx.St) : (ownerRx.run s).Pairwise fun a b =>
    a.rest.length < b.rest.length ∧ ∃ d ∈ b.rest.head?, isAlnumV d.val = true := by
  unfold ownerRx Rx.plus
  show (((Rx.cls isAlphaV).run s).flatMap _).Pairwise _
  apply cls_flatMap
  intro t
  show (((Rx.cls isAlnumV).run t).flatMap _).Pairwise _
  exact cls_flatMap (fun u => star_cls_shrinks _ u)

theorem two_short (s : Rx.St) : (twoDigits.run s).length ≤ 1 := by
  unfold twoDigits
  obtain ⟨rest, caps⟩ := s
  match rest with
  | [] => simp [Rx.run]
  | [a] => by_cases h : isDigitV a.val = true <;> simp [Rx.run, h]
  | a :: b :: rs =>
    by_cases h : isDigitV a.val = true <;> by_cases h2 : isDigitV b.val = true <;> simp [Rx.run, h, h2]

theorem dots_longest (s : Rx.St) : Longest ((Rx.seq (.star (.cls notNewline)) (.cap 2 timeRx)).run s) := by
  show Longest (((Rx.star (.cls notNewline)).run s).flatMap (Rx.cap 2 timeRx).run)
  unfold Longest
  have hlen : ∀ u v, v ∈ (Rx.cap 2 timeRx).run u → u.rest.length = v.rest.length + 11 := by
    intro u v hv
    obtain ⟨w, hw, rfl⟩ := mem_cap.mp hv
    exact time_length (t := w) hw
  rw [List.pairwise_flatMap]
  constructor
  · intro a _
    apply List.Pairwise.imp_of_mem (R := fun _ _ => True)
    · intro x y hx hy _
      have := hlen a x hx
      have := hlen a y hy
      omega
    · exact List.pairwise_of_forall (fun _ _ => trivial)
  · refine (star_cls_shrinks notNewline s).imp ?_
    rintro a b ⟨h, _⟩ x hx y hy
    have := hlen a x hx
    have := hlen b y hy
    omega

theorem comment_longest (s : Rx.St) : Longest (commentRx.run s) := by
  unfold commentRx
  show Longest (((Rx.cap 1 ownerRx).run s).flatMap _)
  unfold Longest
  rw [List.pairwise_flatMap]
  constructor
  · intro a _
    show (((Rx.chr 0x3A).run a).flatMap _).Pairwise _
    exact cls_flatMap (fun u => dots_longest u)
  · simp only [Rx.run]
    rw [List.pairwise_map]
    refine (owner_shrinks s).imp ?_
    rintro a b ⟨_, d, hd, hv⟩ x _ y hy
    exfalso
    obtain ⟨v, h1, _⟩ := List.mem_flatMap.mp hy
    obtain ⟨c, hc, e, _⟩ := Rx.mem_cls h1
    simp only at e
    rw [e] at hd
    have : c = d := by simpa using hd
    subst this
    rw [alnum_iff] at hv
    have : c.val = 58 := by simpa using hc
    omega

theorem Spec.OwnerShape.not_colon {o : List Rune} (h : OwnerShape o) : ∀ q ∈ o, q.val ≠ 58 := by
  obtain ⟨a, b, cs, rfl, ha, hx⟩ := h
  intro q hq e
  rcases List.mem_cons.mp hq with h | h
  · have := (oneOf_letters a).mpr ha
    rw [← h] at this
    simp only [isAlphaV, inRange, Bool.or_eq_true, Bool.and_eq_true, Nat.ble_eq] at this
    omega
  · have := (oneOf_lettersDigits q).mpr (hx q h)
    rw [alnum_iff] at this
    omega

theorem Spec.StampShape.length {z : List Rune} (h : StampShape z) : z.length = 11 := by
  obtain ⟨a, b, c, d, e, f, g, h, i, j, k, rfl, _⟩ := h
  rfl

/-- Owner and colon of a comment at a given place are determined; the end determines the rest. -/
theorem Spec.CommentAt.split {s o o' mid mid' z z' post post' : List Rune} {c c' : Rune}
    (h : CommentAt s o c mid z post) (h' : CommentAt s o' c' mid' z' post') :
    o = o' ∧ c = c' ∧ mid ++ (z ++ post) = mid' ++ (z' ++ post') := by
  obtain ⟨e, ho, hc, _⟩ := h
  obtain ⟨e', ho', hc', _⟩ := h'
  have h1 := ho.not_colon
  have h2 := ho'.not_colon
  rw [e] at e'
  clear e ho ho'
  revert e'
  generalize mid ++ (z ++ post) = w
  generalize mid' ++ (z' ++ post') = w'
  intro e
  induction o generalizing o' with
  | nil =>
    cases o' with
    | nil => injection e with e1 e2; exact ⟨rfl, e1, e2⟩
    | cons q o' => injection e with e1 _; subst e1; exact absurd hc (h2 _ (by simp))
  | cons p o ih =>
    cases o' with
    | nil => injection e with e1 _; subst e1; exact absurd hc' (h1 _ (by simp))
    | cons q o' =>
      injection e with e1 e2
      obtain ⟨r1, r2, r3⟩ := ih (fun a ha => h1 a (by simp [ha])) (fun a ha => h2 a (by simp [ha])) e2
      exact ⟨by rw [e1, r1], r2, r3⟩

theorem Spec.CommentAt.same {s o o' mid mid' z z' post post' : List Rune} {c c' : Rune}
    (h : CommentAt s o c mid z post) (h' : CommentAt s o' c' mid' z' post') (hl : mid.length = mid'.length) :
    o = o' ∧ c = c' ∧ mid = mid' ∧ z = z' ∧ post = post' := by
  obtain ⟨e1, e2, e3⟩ := h.split h'
  obtain ⟨e4, e5⟩ := List.append_inj e3 hl
  obtain ⟨e6, e7⟩ := List.append_inj e5 (by rw [h.2.2.2.2.length, h'.2.2.2.2.length])
  exact ⟨e1, e2, e4, e6, e7⟩

theorem Spec.CommentAt.lengths {s o o' mid mid' z z' post post' : List Rune} {c c' : Rune}
    (h : CommentAt s o c mid z post) (h' : CommentAt s o' c' mid' z' post') :
    mid.length + post.length = mid'.length + post'.length := by
  have := congrArg List.length (h.split h').2.2
  simp only [List.length_append, h.2.2.2.2.length, h'.2.2.2.2.length] at this
  omega

/-- The preferred match: the longest body. -/
theorem comment_first_exact {s : List Rune} {t : Rx.St} : commentRx.first s = some t ↔
    ∃ o c mid z post, CommentAt s o c mid z post ∧ t = ⟨post, [(2, z), (1, o)]⟩ ∧
      ∀ o' c' mid' z' post', CommentAt s o' c' mid' z' post' → mid'.length ≤ mid.length := by
  have hl := comment_longest ⟨s, []⟩
  unfold Rx.first
  cases hr : commentRx.run ⟨s, []⟩ with
  | nil =>
    constructor
    · intro h; simp at h
    · rintro ⟨o, c, mid, z, post, h, _, _⟩
      have : (⟨post, [(2, z), (1, o)]⟩ : Rx.St) ∈ commentRx.run ⟨s, []⟩ := mem_comment.mpr ⟨o, c, mid, z, h, rfl⟩
      rw [hr] at this
      simp at this
  | cons u us =>
    rw [hr] at hl
    obtain ⟨o, c, mid, z, h, hcaps⟩ := (mem_comment (t := u)).mp (by rw [hr]; simp)
    have hmax : ∀ o' c' mid' z' post', CommentAt s o' c' mid' z' post' → mid'.length ≤ mid.length := by
      intro o' c' mid' z' post' h'
      have hm : (⟨post', [(2, z'), (1, o')]⟩ : Rx.St) ∈ commentRx.run ⟨s, []⟩ := mem_comment.mpr ⟨o', c', mid', z', h', rfl⟩
      rw [hr] at hm
      have := h.lengths h'
      rcases List.mem_cons.mp hm with e | hm
      · rw [← e] at this
        simp only at this
        omega
      · have := List.rel_of_pairwise_cons hl hm
        simp only at this
        omega
    have hu : u = ⟨u.rest, [(2, z), (1, o)]⟩ := by
      obtain ⟨_, _⟩ := u
      simp only at hcaps
      rw [hcaps]
    rw [List.head?_cons]
    constructor
    · intro e
      injection e with e
      subst e
      exact ⟨o, c, mid, z, u.rest, h, hu, hmax⟩
    · rintro ⟨o', c', mid', z', post', h', e, hmax'⟩
      have hlen : mid.length = mid'.length := Nat.le_antisymm (hmax' _ _ _ _ _ h) (hmax _ _ _ _ _ h')
      obtain ⟨e1, _, _, e4, e5⟩ := h.same h' hlen
      rw [hu, e, e1, e4, e5]

theorem comment_first_none {s : List Rune} : commentRx.first s = none ↔ NoComment s := by
  unfold Rx.first
  rw [List.head?_eq_none_iff, List.eq_nil_iff_forall_not_mem]
  constructor
  · intro h o c mid z post hc
    exact h ⟨post, [(2, z), (1, o)]⟩ (mem_comment.mpr ⟨o, c, mid, z, hc, rfl⟩)
  · intro h t ht
    obtain ⟨o, c, mid, z, hc, _⟩ := mem_comment.mp ht
    exact h _ _ _ _ _ hc

/-! ## The leftmost match -/

theorem find_some {r : Rx} {s start : List Rune} {t : Rx.St} : r.find s = some (start, t) ↔
    ∃ pre, s = pre ++ start ∧ r.first start = some t ∧ ∀ a b, pre = a ++ b → b ≠ [] → r.first (b ++ start) = none := by
  constructor
  · intro h
    induction s with
    | nil =>
      rw [Rx.find] at h
      cases hf : r.first [] with
      | none => rw [hf] at h; exact nomatch h
      | some u =>
        rw [hf] at h
        simp only [Option.map_some, Option.some.injEq, Prod.mk.injEq] at h
        obtain ⟨rfl, rfl⟩ := h
        exact ⟨[], rfl, hf, fun a b e hb => absurd (List.append_eq_nil_iff.mp e.symm).2 hb⟩
    | cons c cs ih =>
      rw [Rx.find] at h
      cases hf : r.first (c :: cs) with
      | none =>
        rw [hf] at h
        obtain ⟨pre, e, h1, h2⟩ := ih h
        refine ⟨c :: pre, by rw [e]; rfl, h1, ?_⟩
        intro a b e2 hb
        cases a with
        | nil => simp only [List.nil_append] at e2; rw [← e2, List.cons_append, ← e]; exact hf
        | cons d a => injection e2 with _ e2; exact h2 a b e2 hb
      | some u =>
        rw [hf] at h
        simp only [Option.some.injEq, Prod.mk.injEq] at h
        obtain ⟨rfl, rfl⟩ := h
        exact ⟨[], rfl, hf, fun a b e hb => absurd (List.append_eq_nil_iff.mp e.symm).2 hb⟩
  · rintro ⟨pre, rfl, h1, h2⟩
    rw [Rx.find_append_of_no_match h2]
    cases start with
    | nil => rw [Rx.find, h1]; rfl
    | cons c cs => rw [Rx.find, h1]

theorem find_none {r : Rx} {s : List Rune} : r.find s = none ↔ ∀ a b, s = a ++ b → r.first b = none := by
  induction s with
  | nil =>
    rw [Rx.find]
    constructor
    · intro h a b e
      rw [(List.append_eq_nil_iff.mp e.symm).2]
      cases hf : r.first [] with
      | none => rfl
      | some u => rw [hf] at h; exact nomatch h
    · intro h; rw [h [] [] rfl]; rfl
  | cons c cs ih =>
    rw [Rx.find]
    constructor
    · intro h a b e
      cases hf : r.first (c :: cs) with
      | some u => rw [hf] at h; exact nomatch h
      | none =>
        rw [hf] at h
        cases a with
        | nil => simp only [List.nil_append] at e; rw [← e]; exact hf
        | cons d a => injection e with _ e; exact ih.mp h a b e
    · intro h
      rw [h [] _ rfl]
      exact ih.mpr (fun a b e => h (c :: a) b (by rw [e]; rfl))

/-! ## The time -/

theorem digit_byte {r : Rune} {b : UInt8} (h : OneOf digits r) (e : r = asciiRune b) : isDigit b = true := by
  have := (oneOf_digits r).mpr h
  rw [e] at this
  simp only [isDigitV, inRange, asciiRune_val, Bool.and_eq_true, Nat.ble_eq] at this
  rwa [isDigit_iff]

/-- The bytes of a time stamp. -/
theorem stamp_bytes {data : Bytes} {z : List Rune} (hz : StampShape z) (hm : ∀ q ∈ z, q ∈ runes data) :
    ∃ a b d e f g h j k : UInt8, z = [a, b, 47, d, e, f, g, h, 58, j, k].map asciiRune ∧
      isDigit a = true ∧ isDigit b = true ∧ isDigit d = true ∧ isDigit e = true ∧ isDigit g = true ∧ isDigit h = true ∧
      isDigit j = true ∧ isDigit k = true := by
  obtain ⟨a, b, c, d, e, f, g, h, i, j, k, rfl, ⟨ha, hb⟩, hc, ⟨hd, he⟩, hf, ⟨hg, hh⟩, hi, hj, hk⟩ := hz
  have dig : ∀ q, OneOf digits q → q ∈ runes data → ∃ b, q = asciiRune b ∧ isDigit b = true := by
    intro q hq hm
    have hv := (oneOf_digits q).mpr hq
    simp only [isDigitV, inRange, Bool.and_eq_true, Nat.ble_eq] at hv
    obtain ⟨b, _, _, e⟩ := rune_ascii_mem hm (by omega)
    exact ⟨b, e, digit_byte hq e⟩
  have lit : ∀ q v, q.val = v → v < 0x80 → q ∈ runes data → q = asciiRune (UInt8.ofNat v) := by
    intro q v hq hv hm
    obtain ⟨b, _, _, e⟩ := rune_ascii_mem hm (by omega)
    rw [e] at hq ⊢
    rw [asciiRune_val] at hq
    rw [← hq, UInt8.ofNat_toNat]
  obtain ⟨a', rfl, ha'⟩ := dig a ha (hm _ (by simp))
  obtain ⟨b', rfl, hb'⟩ := dig b hb (hm _ (by simp))
  obtain ⟨d', rfl, hd'⟩ := dig d hd (hm _ (by simp))
  obtain ⟨e', rfl, he'⟩ := dig e he (hm _ (by simp))
  obtain ⟨g', rfl, hg'⟩ := dig g hg (hm _ (by simp))
  obtain ⟨h', rfl, hh'⟩ := dig h hh (hm _ (by simp))
  obtain ⟨j', rfl, hj'⟩ := dig j hj (hm _ (by simp))
  obtain ⟨k', rfl, hk'⟩ := dig k hk (hm _ (by simp))
  have hcc := lit c 47 hc (by omega) (hm _ (by simp))
  have hii := lit i 58 hi (by omega) (hm _ (by simp))
  have hv := (oneOf_space f).mpr hf
  simp only [isSpaceV, Bool.or_eq_true, beq_iff_eq] at hv
  obtain ⟨f', _, _, rfl⟩ := rune_ascii_mem (hm f (by simp)) (by omega)
  refine ⟨a', b', d', e', f', g', h', j', k', ?_, ha', hb', hd', he', hg', hh', hj', hk'⟩
  rw [hcc, hii]
  rfl

theorem dec2_of_digits {a b : UInt8} (ha : isDigit a = true) (hb : isDigit b = true) :
    dec2 (digitVal a * 10 + digitVal b) = [a, b] := by
  rw [isDigit_iff] at ha hb
  unfold dec2 digitVal
  have e1 : 48 + ((a.toNat - 48) * 10 + (b.toNat - 48)) / 10 % 10 = a.toNat := by omega
  have e2 : 48 + ((a.toNat - 48) * 10 + (b.toNat - 48)) % 10 = b.toNat := by omega
  rw [e1, e2, UInt8.ofNat_toNat, UInt8.ofNat_toNat]

theorem getnum_digits {fixed : Bool} {a b : UInt8} (ha : isDigit a = true) (hb : isDigit b = true) (v : Bytes) :
    getnum fixed (a :: b :: v) = .ok (digitVal a * 10 + digitVal b, v) := by
  simp [getnum, ha, hb]

/-- A time stamp is accepted exactly when it is the text of a time. -/
theorem stamp_parse {a b d e f g h j k : UInt8} (ha : isDigit a = true) (hb : isDigit b = true) (hd : isDigit d = true)
    (he : isDigit e = true) (hg : isDigit g = true) (hh : isDigit h = true) (hj : isDigit j = true)
    (hk : isDigit k = true) (t : Civil) :
    timeParse layoutComment [a, b, 47, d, e, f, g, h, 58, j, k] = .ok t ↔
      CommentTime t ∧ stamp t = [a, b, 47, d, e, f, g, h, 58, j, k] := by
  constructor
  · intro hp
    unfold timeParse layoutComment at hp
    simp only [parseChunks, Chunk.parse, getnum_digits ha hb, Res.ok_bind] at hp
    split at hp
    · exact nomatch hp
    rename_i hmon
    simp only [Res.ok_bind, if_true, getnum_digits hd he] at hp
    by_cases hf : f = 32
    · subst hf
      have hg32 : (g == 32) = false := by
        rw [isDigit_iff] at hg
        rw [beq_eq_false_iff_ne]
        intro e
        subst e
        revert hg; decide
      have edrop : List.dropWhile (fun x : UInt8 => x == 32) [32, g, h, 58, j, k] = [g, h, 58, j, k] := by
        simp [List.dropWhile, hg32]
      simp only [ne_eq, not_true_eq_false, if_false, edrop, Res.ok_bind, getnum_digits hg hh] at hp
      split at hp
      · exact nomatch hp
      rename_i hhr
      simp only [Res.ok_bind, if_true, getnum_digits hj hk] at hp
      split at hp
      · exact nomatch hp
      rename_i hmn
      simp only [Res.ok_bind, not_true_eq_false, if_false] at hp
      split at hp
      · exact nomatch hp
      rename_i hdy
      have et := (Res.ok.inj hp).symm
      subst et
      refine ⟨⟨⟨Nat.zero_le _, ?_⟩, rfl, rfl⟩, ?_⟩
      · simp only [not_or, Nat.not_lt] at hmon hdy
        simp only
        omega
      · rw [stamp_eq]
        simp only [dec2_of_digits ha hb, dec2_of_digits hd he, dec2_of_digits hg hh, dec2_of_digits hj hk]
        rfl
    · simp only [ne_eq, hf, not_false_eq_true, if_true] at hp
      exact nomatch hp
  · rintro ⟨ht, e⟩
    rw [← e]
    exact parse_format_comment t ht.1 ht.2.1 ht.2.2

theorem getnum_err {fixed : Bool} {v : Bytes} {e : String} (h : getnum fixed v = .err e) : e ≠ errNotUserComment := by
  unfold getnum at h
  have hb : "bad" ≠ errNotUserComment := by decide
  repeat' (split at h)
  all_goals first
    | (injection h with h; rw [← h]; exact hb)
    | exact nomatch h

/-- An unreadable time is not taken for a missing comment. -/
theorem stamp_err {v : Bytes} {e : String} (h : timeParse layoutComment v = .err e) : e ≠ errNotUserComment := by
  have bindErr : ∀ {α β : Type} (x : Res α) (f : α → Res β), (∀ e, x = .err e → e ≠ errNotUserComment) →
      (∀ a e, f a = .err e → e ≠ errNotUserComment) → ∀ e, x.bind f = .err e → e ≠ errNotUserComment := by
    intro α β x f hx hf e h
    cases x with
    | ok a => exact hf a e h
    | err e' => have : e' = e := by injection h
                rw [← this]; exact hx e' rfl
    | panic => exact nomatch h
    | diverge => exact nomatch h
  have hb : "bad" ≠ errNotUserComment := by decide
  have hchunk : ∀ (c : Chunk), c ∈ layoutComment → ∀ (t : Civil) (v : Bytes) e, Chunk.parse t v c = .err e →
      e ≠ errNotUserComment := by
    intro c hc t v e h
    have hm : "month out of range" ≠ errNotUserComment := by decide
    have hh : "hour out of range" ≠ errNotUserComment := by decide
    have hn : "minute out of range" ≠ errNotUserComment := by decide
    simp only [layoutComment, List.mem_cons, List.not_mem_nil, or_false] at hc
    have lit : ∀ x : UInt8, Chunk.parse t v (.lit x) = .err e → e ≠ errNotUserComment := by
      intro x h
      simp only [Chunk.parse] at h
      repeat' (split at h)
      all_goals first
        | (injection h with h; rw [← h]; exact hb)
        | exact nomatch h
    rcases hc with rfl | rfl | rfl | rfl | rfl | rfl | rfl
    · refine bindErr _ _ (fun e => getnum_err) ?_ e h
      rintro ⟨n, v'⟩ e h
      simp only at h
      split at h
      · injection h with h; rw [← h]; exact hm
      · exact nomatch h
    · exact lit _ h
    · refine bindErr _ _ (fun e => getnum_err) ?_ e h
      rintro ⟨n, v'⟩ e h
      exact nomatch h
    · simp only [Chunk.parse] at h
      repeat' (split at h)
      all_goals first
        | (injection h with h; rw [← h]; exact hb)
        | exact nomatch h
    · refine bindErr _ _ (fun e => getnum_err) ?_ e h
      rintro ⟨n, v'⟩ e h
      simp only at h
      split at h
      · injection h with h; rw [← h]; exact hh
      · exact nomatch h
    · exact lit _ h
    · refine bindErr _ _ (fun e => getnum_err) ?_ e h
      rintro ⟨n, v'⟩ e h
      simp only at h
      split at h
      · injection h with h; rw [← h]; exact hn
      · exact nomatch h
  have hchunks : ∀ (l : List Chunk), (∀ c ∈ l, c ∈ layoutComment) → ∀ t v e, parseChunks l t v = .err e →
      e ≠ errNotUserComment := by
    intro l
    induction l with
    | nil => intro _ t v e h; exact nomatch h
    | cons c l ih =>
      intro hl t v e h
      refine bindErr _ _ (fun e => hchunk c (hl c (by simp)) t v e) ?_ e h
      rintro ⟨t', v'⟩ e h
      exact ih (fun c hc => hl c (by simp [hc])) t' v' e h
  refine bindErr _ _ (fun e => hchunks layoutComment (fun c hc => hc) _ _ e) ?_ e h
  rintro ⟨t', v'⟩ e h
  have h1 : "extra text" ≠ errNotUserComment := by decide
  have h2 : "day out of range" ≠ errNotUserComment := by decide
  simp only at h
  repeat' (split at h)
  all_goals first
    | (injection h with h; rw [← h]; first | exact h1 | exact h2)
    | exact nomatch h

/-! ## The text -/

theorem splitByte_pieces (w : Bytes) : ∃ p ps, splitByte 58 w = p :: ps ∧ w = p ++ ps.flatMap (58 :: ·) ∧
    (58 : UInt8) ∉ p ∧ ∀ q ∈ ps, (58 : UInt8) ∉ q := by
  induction w with
  | nil => exact ⟨[], [], rfl, rfl, by simp, by simp⟩
  | cons c w ih =>
    obtain ⟨p, ps, e1, e2, h1, h2⟩ := ih
    by_cases hc : c = 58
    · subst hc
      refine ⟨[], p :: ps, by rw [splitByte, if_pos rfl, e1], by rw [e2]; simp, by simp, ?_⟩
      intro q hq
      rcases List.mem_cons.mp hq with h | h
      · rw [h]; exact h1
      · exact h2 q h
    · refine ⟨c :: p, ps, by rw [splitByte, if_neg hc, e1], by rw [e2]; simp, ?_, h2⟩
      simp only [List.mem_cons, not_or]
      exact ⟨Ne.symm hc, h1⟩

theorem splitByte_glue (p : Bytes) (ps : List Bytes) (h1 : (58 : UInt8) ∉ p) (h2 : ∀ q ∈ ps, (58 : UInt8) ∉ q) :
    splitByte 58 (p ++ ps.flatMap (58 :: ·)) = p :: ps := by
  induction ps generalizing p with
  | nil => simp only [List.flatMap_nil, List.append_nil]; exact splitByte_of_not_mem h1
  | cons q ps ih =>
    rw [List.flatMap_cons, List.cons_append, splitByte_sep, splitByte_of_not_mem h1,
      ih q (h2 q (by simp)) (fun x hx => h2 x (by simp [hx]))]
    rfl

theorem breakOn_spec (sep : Bytes) (hs : sep ≠ []) (s : Bytes) (h : sep <:+: s) : ∃ x y, s = x ++ sep ++ y ∧
    (∀ a z, x = a ++ z → z ≠ [] → ¬ sep <+: z ++ sep ++ y) ∧ (breakOn sep s).1 = x := by
  induction s with
  | nil =>
    obtain ⟨a, b, e⟩ := h
    have := List.append_eq_nil_iff.mp e
    exact absurd (List.append_eq_nil_iff.mp this.1).2 hs
  | cons c s ih =>
    by_cases hp : sep <+: c :: s
    · obtain ⟨y, hy⟩ := hp
      refine ⟨[], y, by rw [← hy]; rfl, fun a z e hz => absurd (List.append_eq_nil_iff.mp e.symm).2 hz, ?_⟩
      rw [breakOn, if_pos]
      rw [List.isPrefixOf_iff_prefix]
      exact ⟨y, hy⟩
    · have hin : sep <:+: s := by
        rcases List.infix_cons_iff.mp h with h | h
        · exact absurd h hp
        · exact h
      obtain ⟨x, y, e, hf, hb⟩ := ih hin
      refine ⟨c :: x, y, by rw [e]; rfl, ?_, ?_⟩
      · intro a z e2 hz
        cases a with
        | nil =>
          simp only [List.nil_append] at e2
          rw [← e2, List.cons_append, List.cons_append, ← e]
          exact hp
        | cons d a => injection e2 with _ e2; exact hf a z e2 hz
      · rw [breakOn, if_neg (by rw [List.isPrefixOf_iff_prefix]; exact hp), hb]

/-- The time stamp does not start inside the owner or at the colon. -/
theorem stamp_not_in_owner {owner body : Bytes} (t : Civil) (ho : ∀ b ∈ owner, AlNum b) :
    ∀ a z, owner ++ [58] = a ++ z → z ≠ [] → ¬ stamp t <+: z ++ body := by
  rintro a z e hz ⟨k, hk⟩
  have hd : ∀ n, ∃ a b, dec2 n = [a, b] ∧ a ≠ 58 ∧ b ≠ 58 := by
    intro n
    refine ⟨_, _, rfl, ?_, ?_⟩
    all_goals
      intro e
      have := dec2_digits n 58 (by rw [← e]; simp [dec2])
      revert this; decide
  obtain ⟨a1, b1, e1, h1, k1⟩ := hd t.month
  rw [stamp_eq, e1] at hk
  simp only [List.cons_append, List.nil_append] at hk
  have hlast : ∀ z0 x, z = z0 ++ [x] → x = 58 ∧ ∀ b ∈ z0, AlNum b := by
    intro z0 x hz0
    rw [hz0, ← List.append_assoc] at e
    obtain ⟨e2, e3⟩ := List.append_inj' e rfl
    exact ⟨by simpa using e3.symm, fun b hb => ho b (by rw [e2]; simp [hb])⟩
  match z with
  | [] => exact hz rfl
  | [x] =>
    have := (hlast [] x rfl).1
    injection hk with e4 _
    exact h1 (e4.trans this)
  | [x, y] =>
    have := (hlast [x] y rfl).1
    injection hk with _ e4
    injection e4 with e4 _
    exact k1 (e4.trans this)
  | x :: y :: w :: zs =>
    injection hk with _ e4
    injection e4 with _ e4
    injection e4 with e4 _
    rcases List.eq_nil_or_concat zs with h | ⟨zs', v, h⟩
    · subst h
      have := (hlast [x, y] w rfl).1
      rw [this] at e4
      exact absurd e4 (by decide)
    · rw [List.concat_eq_append] at h
      have := (hlast (x :: y :: w :: zs') v (by rw [h]; rfl)).2 w (by simp)
      rw [← e4] at this
      revert this; decide

theorem stamp_ne_nil (t : Civil) : stamp t ≠ [] := by
  intro h
  have := congrArg List.length h
  rw [stamp_eq] at this
  simp [dec2] at this

/-- What the code computes for the text. -/
theorem text_exact {owner body : Bytes} (t : Civil) (ho : ∀ b ∈ owner, AlNum b) (hin : stamp t <:+: body) (text : Bytes) :
    joinPieces (splitByte 58 (breakOn (stamp t) (owner ++ 58 :: body)).1) = text ↔ TextOf body (stamp t) text := by
  have hcol : (58 : UInt8) ∉ owner := by
    intro h
    have := ho 58 h
    revert this; decide
  have key : ∀ x y : Bytes, body = x ++ stamp t ++ y → (∀ a z, x = a ++ z → z ≠ [] → ¬ stamp t <+: z ++ stamp t ++ y) →
      (breakOn (stamp t) (owner ++ 58 :: body)).1 = owner ++ 58 :: x := by
    intro x y e hf
    have e2 : owner ++ 58 :: body = (owner ++ 58 :: x) ++ stamp t ++ y := by rw [e]; simp
    rw [e2, breakOn_eq _ _ _ (stamp_ne_nil t)]
    intro a z e3 hz
    have e4 : owner ++ 58 :: x = (owner ++ [58]) ++ x := by simp
    rw [e4] at e3
    rcases List.append_eq_append_iff.mp e3 with ⟨m, h1, h2⟩ | ⟨m, h1, h2⟩
    · exact hf m z h2 hz
    · by_cases hm : m = []
      · subst hm
        simp only [List.nil_append] at h2
        rw [h2]
        exact hf [] x rfl (by rw [← h2]; exact hz)
      · rw [h2, List.append_assoc, List.append_assoc]
        exact stamp_not_in_owner t ho a m h1 hm
  have join : ∀ (x p : Bytes) (ps : List Bytes), x = p ++ ps.flatMap (58 :: ·) → (58 : UInt8) ∉ p →
      (∀ q ∈ ps, (58 : UInt8) ∉ q) → joinPieces (splitByte 58 (owner ++ 58 :: x)) =
      trimSpace p ++ ps.flatMap (fun q => trimSpace q ++ [58]) := by
    intro x p ps e h1 h2
    rw [splitByte_sep, splitByte_of_not_mem hcol, e, splitByte_glue p ps h1 h2]
    rfl
  constructor
  · rintro rfl
    obtain ⟨x, y, e, hf, _⟩ := breakOn_spec _ (stamp_ne_nil t) body hin
    obtain ⟨p, ps, _, e2, h1, h2⟩ := splitByte_pieces x
    exact ⟨x, y, p, ps, e, hf, e2, h1, h2, by rw [key x y e hf, join x p ps e2 h1 h2]⟩
  · rintro ⟨x, y, p, ps, e, hf, e2, h1, h2, rfl⟩
    rw [key x y e hf, join x p ps e2 h1 h2]

/-! ## C84 -/

theorem comment_find {s o mid z : List Rune} {c : Rune} (h : CommentOf s o c mid z) :
    ∃ pre post, s = pre ++ (o ++ c :: (mid ++ (z ++ post))) ∧
      commentRx.find s = some (o ++ c :: (mid ++ (z ++ post)), ⟨post, [(2, z), (1, o)]⟩) ∧ OwnerShape o ∧ c.val = 58 ∧
      StampShape z := by
  obtain ⟨pre, start, post, rfl, hc, hno, hmax⟩ := h
  have e := hc.1
  refine ⟨pre, post, by rw [e], ?_, hc.2.1, hc.2.2.1, hc.2.2.2.2⟩
  rw [← e]
  exact find_some.mpr ⟨pre, rfl, comment_first_exact.mpr ⟨o, c, mid, z, post, hc, rfl, hmax⟩,
    fun a b e hb => comment_first_none.mpr (hno a b e hb)⟩

theorem find_comment {s start : List Rune} {t : Rx.St} (h : commentRx.find s = some (start, t)) :
    ∃ o c mid z, CommentOf s o c mid z := by
  obtain ⟨pre, e, h1, h2⟩ := find_some.mp h
  obtain ⟨o, c, mid, z, post, hc, _, hmax⟩ := comment_first_exact.mp h1
  exact ⟨o, c, mid, z, pre, start, post, e, hc, fun a b e hb => comment_first_none.mp (h2 a b e hb), hmax⟩

/-- What the code does with the comment of a line. -/
theorem parse_of_comment {data : Bytes} {o mid z : List Rune} {c : Rune} (h : CommentOf (runes data) o c mid z) :
    parseUserComment data = (timeParse layoutComment (unrunes z)).bind fun ct =>
      .ok (unrunes o, ct, joinPieces (splitByte 58
        (breakOn (unrunes z) (unrunes o ++ 58 :: (unrunes mid ++ unrunes z))).1)) := by
  obtain ⟨pre, post, e, hf, ho, hc, hz⟩ := comment_find h
  have hcr : c = asciiRune 58 := by
    obtain ⟨b, _, _, e2⟩ := rune_ascii_mem (s := data) (r := c) (by rw [e]; simp) (by omega)
    rw [e2] at hc ⊢
    have : b = 58 := UInt8.toNat_inj.mp hc
    rw [this]
  have hlen : 0 < (unrunes o).length := by
    obtain ⟨a, b, cs, rfl, _⟩ := ho
    have := rune_bytes_pos data a (by rw [e]; simp)
    rw [unrunes_cons, List.length_append]
    omega
  have hg0 : unrunes (Rx.group (o ++ c :: (mid ++ (z ++ post))) ⟨post, [(2, z), (1, o)]⟩ 0) =
      unrunes o ++ 58 :: (unrunes mid ++ unrunes z) := by
    have e2 : o ++ c :: (mid ++ (z ++ post)) = (o ++ c :: (mid ++ z)) ++ post := by simp
    have : Rx.group (o ++ c :: (mid ++ (z ++ post))) ⟨post, [(2, z), (1, o)]⟩ 0 = o ++ c :: (mid ++ z) := by
      rw [e2]
      simp only [Rx.group, if_true]
      exact take_front _ _
    rw [this, unrunes_append, unrunes_cons, unrunes_append, hcr]
    rfl
  have hg1 : Rx.group (o ++ c :: (mid ++ (z ++ post))) ⟨post, [(2, z), (1, o)]⟩ 1 = o := by simp [Rx.group]
  have hg2 : Rx.group (o ++ c :: (mid ++ (z ++ post))) ⟨post, [(2, z), (1, o)]⟩ 2 = z := by simp [Rx.group]
  unfold parseUserComment
  rw [hf]
  simp only [hg0, hg1, hg2]
  rw [if_neg (by omega)]
  congr 1
  funext ct
  rw [if_neg]
  simp

theorem comment_parts {data : Bytes} {o mid z : List Rune} {c : Rune} (h : CommentOf (runes data) o c mid z) :
    (∀ b ∈ unrunes o, AlNum b) ∧ ∃ a b d e f g h j k : UInt8, unrunes z = [a, b, 47, d, e, f, g, h, 58, j, k] ∧
      isDigit a = true ∧ isDigit b = true ∧ isDigit d = true ∧ isDigit e = true ∧ isDigit g = true ∧ isDigit h = true ∧
      isDigit j = true ∧ isDigit k = true := by
  obtain ⟨pre, post, e, _, ho, _, hz⟩ := comment_find h
  constructor
  · intro b hb
    unfold unrunes at hb
    obtain ⟨r, hr, hb⟩ := List.mem_flatMap.mp hb
    have hv : isAlnumV r.val = true := by
      obtain ⟨a, b', cs, rfl, ha, hx⟩ := ho
      rcases List.mem_cons.mp hr with h | h
      · rw [h]; simp [isAlnumV, (oneOf_letters a).mpr ha]
      · exact (oneOf_lettersDigits r).mpr (hx r h)
    rw [alnum_iff] at hv
    obtain ⟨b', _, _, e2⟩ := rune_ascii_mem (s := data) (r := r) (by rw [e]; simp [hr]) (by omega)
    subst e2
    have : b = b' := by simpa [asciiRune] using hb
    subst this
    exact hv
  · obtain ⟨a, b, d, e', f, g, h, j, k, h1, h2⟩ := stamp_bytes (data := data) hz (fun q hq => by rw [e]; simp [hq])
    exact ⟨a, b, d, e', f, g, h, j, k, by rw [h1, unrunes_ascii], h2⟩

/-- C84: a line is read as a comment with this owner, time and text exactly when its leftmost comment, taken up to the
last time stamp on the line, has this owner, the text of this time as its stamp, and this text as its body. -/
theorem C84_parse_exact (data owner text : Bytes) (t : Civil) : parseUserComment data = .ok (owner, t, text) ↔
    ∃ o c mid z, CommentOf (runes data) o c mid z ∧ CommentTime t ∧ unrunes z = stamp t ∧ owner = unrunes o ∧
      TextOf (unrunes mid ++ stamp t) (stamp t) text := by
  constructor
  · intro h
    cases hf : commentRx.find (runes data) with
    | none => unfold parseUserComment at h; rw [hf] at h; exact nomatch h
    | some p =>
      obtain ⟨o, c, mid, z, hc⟩ := find_comment (t := p.2) (start := p.1) hf
      obtain ⟨ho, a, b, d, e, f, g, h', j, k, ez, ha, hb, hd, he, hg, hh, hj, hk⟩ := comment_parts hc
      rw [parse_of_comment hc] at h
      obtain ⟨ct, h1, h2⟩ := Res.bind_eq_ok.mp h
      have h3 := Res.ok.inj h2
      simp only [Prod.mk.injEq] at h3
      obtain ⟨e1, rfl, e3⟩ := h3
      rw [ez] at h1
      obtain ⟨ht, est⟩ := (stamp_parse ha hb hd he hg hh hj hk ct).mp h1
      have ez' : unrunes z = stamp ct := by rw [ez, est]
      rw [ez'] at e3
      exact ⟨o, c, mid, z, hc, ht, ez', e1.symm, (text_exact ct ho ⟨unrunes mid, [], by simp⟩ text).mp e3⟩
  · rintro ⟨o, c, mid, z, hc, ht, ez, rfl, htext⟩
    obtain ⟨ho, _⟩ := comment_parts hc
    rw [parse_of_comment hc, ez]
    have hp : timeParse layoutComment (stamp t) = .ok t := parse_format_comment t ht.1 ht.2.1 ht.2.2
    rw [hp]
    show Res.ok _ = _
    rw [(text_exact t ho ⟨unrunes mid, [], by simp⟩ text).mpr htext]

/-- C84: a line is passed over exactly when no comment starts anywhere in it. -/
theorem C84_passed_over_exact (data : Bytes) : parseUserComment data = .err errNotUserComment ↔
    ∀ a b, runes data = a ++ b → NoComment b := by
  constructor
  · intro h
    cases hf : commentRx.find (runes data) with
    | none => exact fun a b e => comment_first_none.mp (find_none.mp hf a b e)
    | some p =>
      exfalso
      obtain ⟨o, c, mid, z, hc⟩ := find_comment (t := p.2) (start := p.1) hf
      rw [parse_of_comment hc] at h
      cases ht : timeParse layoutComment (unrunes z) with
      | ok ct => rw [ht] at h; exact nomatch h
      | err e =>
        rw [ht] at h
        have : e = errNotUserComment := by injection h
        exact stamp_err ht this
      | panic => rw [ht] at h; exact nomatch h
      | diverge => rw [ht] at h; exact nomatch h
  · intro h
    have hf : commentRx.find (runes data) = none := find_none.mpr (fun a b e => comment_first_none.mpr (h a b e))
    unfold parseUserComment
    rw [hf]

/-- C84: any other failure means that the line has a comment whose stamp is not the text of any time. Reading the
comments of an article stops there. -/
theorem C84_bad_time_exact (data : Bytes) : (∃ e, parseUserComment data = .err e ∧ e ≠ errNotUserComment) ↔
    ∃ o c mid z, CommentOf (runes data) o c mid z ∧ ∀ t, CommentTime t → unrunes z ≠ stamp t := by
  constructor
  · rintro ⟨e, h, hne⟩
    cases hf : commentRx.find (runes data) with
    | none => unfold parseUserComment at h; rw [hf] at h; injection h with h; exact absurd h.symm hne
    | some p =>
      obtain ⟨o, c, mid, z, hc⟩ := find_comment (t := p.2) (start := p.1) hf
      refine ⟨o, c, mid, z, hc, ?_⟩
      intro t ht ez
      have hp : timeParse layoutComment (stamp t) = .ok t := parse_format_comment t ht.1 ht.2.1 ht.2.2
      rw [parse_of_comment hc, ez, hp] at h
      exact nomatch h
  · rintro ⟨o, c, mid, z, hc, hno⟩
    obtain ⟨_, a, b, d, e, f, g, h', j, k, ez, ha, hb, hd, he, hg, hh, hj, hk⟩ := comment_parts hc
    rw [parse_of_comment hc]
    have hr := timeParse_returns layoutComment (unrunes z)
    cases ht : timeParse layoutComment (unrunes z) with
    | ok ct =>
      rw [ez] at ht
      obtain ⟨h1, h2⟩ := (stamp_parse ha hb hd he hg hh hj hk ct).mp ht
      exact absurd (ez.trans h2.symm) (hno ct h1)
    | err e => exact ⟨e, rfl, stamp_err ht⟩
    | panic => rw [ht] at hr; exact hr.elim
    | diverge => rw [ht] at hr; exact hr.elim

/-! ## Examples -/

/-- Two owners and two stamps: the first owner and the last stamp count, the text in between is the body. -/
example : parseUserComment (ascii "x lex: ann: hi 01/02 03:04 05/06 07:08 1.2.3.4") =
    .ok (ascii "lex", ⟨0, 5, 6, 7, 8, 0⟩, ascii "annhi 01/02 03:04:") := by decide +kernel

/-- A stamp with a tab is recognised but is no time. -/
example : parseUserComment (ascii "lex: hi 01/02\t03:04") = .err "bad" := by decide +kernel

/-- The thirtieth of February. -/
example : parseUserComment (ascii "lex: hi 02/30 03:04") = .err "day out of range" := by decide +kernel

/-- One letter is not an owner. -/
example : parseUserComment (ascii "l: hi 02/03 03:04") = .err errNotUserComment := by decide +kernel

example : ∃ o c mid z, CommentOf (runes (ascii "lex: hi 02/03 03:04")) o c mid z ∧ unrunes z = ascii "02/03 03:04" ∧
    TextOf (unrunes mid ++ ascii "02/03 03:04") (ascii "02/03 03:04") (ascii "hi") := by
  have h : parseUserComment (ascii "lex: hi 02/03 03:04") = .ok (ascii "lex", ⟨0, 2, 3, 3, 4, 0⟩, ascii "hi") := by
    decide +kernel
  obtain ⟨o, c, mid, z, h1, _, h3, _, h5⟩ := (C84_parse_exact _ _ _ _).mp h
  have e : stamp ⟨0, 2, 3, 3, 4, 0⟩ = ascii "02/03 03:04" := by decide +kernel
  rw [e] at h3 h5
  exact ⟨o, c, mid, z, h1, h3, h5⟩

end Verif
