import Verif.Props.Ansi
/-!
# C83: exactly which parts of a text the ANSI filter deletes
-/

namespace Verif

/-! ## What an escape sequence is -/

/-- The character is one of those listed. -/
def Spec.OneOf (s : String) (r : Rune) : Prop := r.val ∈ s.toList.map Char.toNat

open Spec

/-- The characters that may follow the escape character. -/
abbrev Spec.introducers : String := "[]()#;?"

/-- The characters that end a control sequence. -/
abbrev Spec.finals : String := "0123456789ABCDEFGHIJKLMNOPRZcfghijklmntqry=><~"

abbrev Spec.digits : String := "0123456789"

/-- The characters of a title: letters, digits and the semicolon. -/
abbrev Spec.titleChars : String := "0123456789;ABCDEFGHIJKLMNOPQRSTUVWXYZabcdefghijklmnopqrstuvwxyz"

/-- `u` starts with title characters ended by BEL, `y` comes after. -/
def Spec.BellEnd (u y : List Rune) : Prop := ∃ x r, u = x ++ r :: y ∧ r.val = 7 ∧ ∀ q ∈ x, OneOf titleChars q

/-- Any number of times a semicolon and up to four digits. -/
inductive Spec.Groups : List Rune → Prop
  | nil : Groups []
  | cons {c : Rune} {g rest : List Rune} : c.val = 0x3B → g.length ≤ 4 → (∀ q ∈ g, OneOf digits q) → Groups rest →
      Groups (c :: (g ++ rest))

/-- Parameters: nothing, or one to four digits and groups. -/
def Spec.Parameters (p : List Rune) : Prop :=
  p = [] ∨ ∃ g rest, p = g ++ rest ∧ 1 ≤ g.length ∧ g.length ≤ 4 ∧ (∀ q ∈ g, OneOf digits q) ∧ Groups rest

/-- `u` starts with parameters and a final character, `y` comes after. -/
def Spec.CsiRun (u y : List Rune) : Prop := ∃ p f, u = p ++ f :: y ∧ Parameters p ∧ OneOf finals f

/-- The longest such start. -/
def Spec.CsiEnd (u y : List Rune) : Prop := CsiRun u y ∧ ∀ y', CsiRun u y' → y.length ≤ y'.length

/-- An escape sequence starts at the front of `s` and `y` comes after: ESC or U+009B, all the introducers that follow,
and then title characters up to a BEL, or if there are none, parameters and a final character, as many as possible. -/
def Spec.SeqEnd (s y : List Rune) : Prop :=
  ∃ e i u, s = e :: (i ++ u) ∧ (e.val = 0x1B ∨ e.val = 0x9B) ∧ (∀ q ∈ i, OneOf introducers q) ∧
    (∀ q ∈ u.head?, ¬ OneOf introducers q) ∧ (BellEnd u y ∨ (¬ ∃ z, BellEnd u z) ∧ CsiEnd u y)

/-- The text without its escape sequences, found from left to right. -/
inductive Spec.Filtered : List Rune → List Rune → Prop
  | nil : Filtered [] []
  | keep {c : Rune} {s r : List Rune} : (¬ ∃ y, SeqEnd (c :: s) y) → Filtered s r → Filtered (c :: s) (c :: r)
  | skip {s y r : List Rune} : SeqEnd s y → Filtered y r → Filtered s r

/-! ## The classes -/

theorem oneOf_intro (r : Rune) : isIntro r.val = true ↔ OneOf introducers r := by
  have e : introducers.toList.map Char.toNat = [0x5B, 0x5D, 0x28, 0x29, 0x23, 0x3B, 0x3F] := by decide
  unfold OneOf
  rw [e]
  simp only [isIntro, Bool.or_eq_true, beq_iff_eq, List.mem_cons, List.not_mem_nil, or_false]
  omega

theorem oneOf_digits (r : Rune) : isDigitV r.val = true ↔ OneOf digits r := by
  have e : digits.toList.map Char.toNat = [48, 49, 50, 51, 52, 53, 54, 55, 56, 57] := by decide
  unfold OneOf
  rw [e]
  simp only [isDigitV, inRange, Bool.and_eq_true, Nat.ble_eq, List.mem_cons, List.not_mem_nil, or_false]
  omega

theorem oneOf_finals (r : Rune) : isFinal r.val = true ↔ OneOf finals r := by
  have e : finals.toList.map Char.toNat = [48, 49, 50, 51, 52, 53, 54, 55, 56, 57, 65, 66, 67, 68, 69, 70, 71, 72, 73, 74,
    75, 76, 77, 78, 79, 80, 82, 90, 99, 102, 103, 104, 105, 106, 107, 108, 109, 110, 116, 113, 114, 121, 61, 62, 60,
    126] := by decide
  unfold OneOf
  rw [e]
  simp only [isFinal, isDigitV, inRange, Bool.or_eq_true, beq_iff_eq, Bool.and_eq_true, Nat.ble_eq, List.mem_cons,
    List.not_mem_nil, or_false]
  omega

theorem oneOf_title (r : Rune) : (isAlnumV r.val = true ∨ r.val = 0x3B) ↔ OneOf titleChars r := by
  have e : titleChars.toList.map Char.toNat = [48, 49, 50, 51, 52, 53, 54, 55, 56, 57, 59, 65, 66, 67, 68, 69, 70, 71, 72,
    73, 74, 75, 76, 77, 78, 79, 80, 81, 82, 83, 84, 85, 86, 87, 88, 89, 90, 97, 98, 99, 100, 101, 102, 103, 104, 105,
    106, 107, 108, 109, 110, 111, 112, 113, 114, 115, 116, 117, 118, 119, 120, 121, 122] := by decide
  unfold OneOf
  rw [e, alnum_iff]
  simp only [List.mem_cons, List.not_mem_nil, or_false]
  omega

/-! ## All matches -/

theorem mem_upTo {p : Nat → Bool} {n : Nat} {s t : Rx.St} : t ∈ (Rx.upTo (.cls p) n).run s ↔
    ∃ x, s.rest = x ++ t.rest ∧ x.length ≤ n ∧ (∀ q ∈ x, p q.val = true) ∧ t.caps = s.caps := by
  induction n generalizing s with
  | zero =>
    simp only [Rx.upTo, Rx.run, List.mem_singleton]
    constructor
    · rintro rfl; exact ⟨[], rfl, by simp, by simp, rfl⟩
    · rintro ⟨x, h1, h2, _, h3⟩
      have : x = [] := List.length_eq_zero_iff.mp (by omega)
      subst this
      obtain ⟨_, _⟩ := s; obtain ⟨_, _⟩ := t
      simp_all
  | succ n ih =>
    unfold Rx.upTo Rx.opt
    rw [Rx.mem_alt, Rx.mem_seq]
    constructor
    · rintro (⟨u, h1, h2⟩ | h)
      · obtain ⟨r, hr, e, c⟩ := Rx.mem_cls h1
        obtain ⟨x, e2, hl, hx, c2⟩ := ih.mp h2
        refine ⟨r :: x, by rw [e, e2]; rfl, by simp; omega, ?_, by rw [c2, c]⟩
        intro q hq
        rcases List.mem_cons.mp hq with h | h
        · rw [h]; exact hr
        · exact hx q h
      · simp only [Rx.run, List.mem_singleton] at h
        subst h
        exact ⟨[], rfl, by simp, by simp, rfl⟩
    · rintro ⟨x, e, hl, hx, c⟩
      cases x with
      | nil =>
        right
        obtain ⟨_, _⟩ := s; obtain ⟨_, _⟩ := t
        simp_all [Rx.run]
      | cons r x =>
        left
        refine ⟨⟨x ++ t.rest, s.caps⟩, ?_, ih.mpr ⟨x, rfl, by simp at hl; omega, fun q hq => hx q (by simp [hq]), c⟩⟩
        obtain ⟨rest, caps⟩ := s
        simp only at e
        rw [e, List.cons_append, Rx.run_cls_cons, if_pos (hx r (by simp))]
        simp

theorem cls_mem {p : Nat → Bool} {s t : Rx.St} {r : Rune} (hp : p r.val = true) (h : s.rest = r :: t.rest)
    (hc : t.caps = s.caps) : t ∈ (Rx.cls p).run s := by
  obtain ⟨_, _⟩ := s; obtain ⟨_, _⟩ := t
  simp only at h hc
  subst h; subst hc
  rw [Rx.run_cls_cons, if_pos hp]
  simp

/-- `(?:;\d{0,4})` -/
def groupRx : Rx := .seq (.chr 0x3B) (.upTo (.cls isDigitV) 4)

theorem mem_groups {s t : Rx.St} : t ∈ (Rx.star groupRx).run s ↔
    ∃ x, Groups x ∧ s.rest = x ++ t.rest ∧ t.caps = s.caps := by
  constructor
  · intro h
    refine Rx.star_induction (P := fun s t => ∃ x, Groups x ∧ s.rest = x ++ t.rest ∧ t.caps = s.caps)
      (fun s => ⟨[], .nil, rfl, rfl⟩) ?_ s t h
    rintro a b c hab _ ⟨x, hx, e, hc⟩
    obtain ⟨d, h1, h2⟩ := Rx.mem_seq.mp hab
    obtain ⟨r, hr, e1, c1⟩ := Rx.mem_cls h1
    obtain ⟨g, e2, hl, hg, c2⟩ := mem_upTo.mp h2
    refine ⟨r :: (g ++ x), .cons (by simpa using hr) hl (fun q hq => (oneOf_digits q).mp (hg q hq)) hx, ?_, ?_⟩
    · rw [e1, e2, e]; simp
    · rw [hc, c2, c1]
  · rintro ⟨x, hx, e, hc⟩
    induction hx generalizing s with
    | nil =>
      have : t = s := by
        obtain ⟨_, _⟩ := s; obtain ⟨_, _⟩ := t
        simp_all
      rw [this]; exact Rx.star_self _ _
    | @cons c g rest h1 h2 h3 h4 ih =>
      refine Rx.star_step (t := ⟨rest ++ t.rest, s.caps⟩) ?_ ?_ (ih rfl hc)
      · refine Rx.mem_seq.mpr ⟨⟨g ++ (rest ++ t.rest), s.caps⟩, cls_mem (r := c) (by simpa using h1) ?_ rfl, ?_⟩
        · rw [e]; simp
        · exact mem_upTo.mpr ⟨g, rfl, h2, fun q hq => (oneOf_digits q).mpr (h3 q hq), rfl⟩
      · rw [e]; simp; omega

/-- `\d{1,4}(?:;\d{0,4})*` -/
def paramRx : Rx := .seq (.seq (.cls isDigitV) (.upTo (.cls isDigitV) 3)) (.star groupRx)

theorem csiRx_eq : csiRx = .seq (.opt paramRx) (.cls isFinal) := rfl

theorem mem_csi {s t : Rx.St} : t ∈ csiRx.run s ↔ CsiRun s.rest t.rest ∧ t.caps = s.caps := by
  rw [csiRx_eq, Rx.mem_seq]
  unfold Rx.opt paramRx
  constructor
  · rintro ⟨u, h1, h2⟩
    obtain ⟨f, hf, e, c⟩ := Rx.mem_cls h2
    have hf := (oneOf_finals f).mp hf
    rcases Rx.mem_alt.mp h1 with h1 | h1
    · obtain ⟨v, h3, h4⟩ := Rx.mem_seq.mp h1
      obtain ⟨w, h5, h6⟩ := Rx.mem_seq.mp h3
      obtain ⟨d, hd, e1, c1⟩ := Rx.mem_cls h5
      obtain ⟨g, e2, hl, hg, c2⟩ := mem_upTo.mp h6
      obtain ⟨x, hx, e3, c3⟩ := mem_groups.mp h4
      refine ⟨⟨d :: g ++ x, f, by rw [e1, e2, e3, e]; simp, Or.inr ⟨d :: g, x, rfl, by simp, by simp; omega, ?_, hx⟩, hf⟩,
        by rw [c, c3, c2, c1]⟩
      intro q hq
      rcases List.mem_cons.mp hq with h | h
      · rw [h]; exact (oneOf_digits d).mp hd
      · exact (oneOf_digits q).mp (hg q h)
    · simp only [Rx.run, List.mem_singleton] at h1
      subst h1
      exact ⟨⟨[], f, e, Or.inl rfl, hf⟩, c⟩
  · rintro ⟨⟨p, f, e, hp, hf⟩, c⟩
    refine ⟨⟨f :: t.rest, s.caps⟩, ?_, cls_mem ((oneOf_finals f).mpr hf) rfl c⟩
    rcases hp with rfl | ⟨g, x, rfl, h1, h2, h3, h4⟩
    · refine Rx.mem_alt.mpr (Or.inr ?_)
      obtain ⟨_, _⟩ := s
      simp_all [Rx.run]
    · cases g with
      | nil => simp at h1
      | cons d g =>
        refine Rx.mem_alt.mpr (Or.inl (Rx.mem_seq.mpr ⟨⟨x ++ f :: t.rest, s.caps⟩, ?_, mem_groups.mpr ⟨x, h4, rfl, rfl⟩⟩))
        refine Rx.mem_seq.mpr ⟨⟨g ++ (x ++ f :: t.rest), s.caps⟩, cls_mem ((oneOf_digits d).mpr (h3 d (by simp))) ?_ rfl, ?_⟩
        · rw [e]; simp
        · exact mem_upTo.mpr ⟨g, rfl, by simp at h2; omega, fun q hq => (oneOf_digits q).mpr (h3 q (by simp [hq])), rfl⟩

/-! ## The longest comes first -/

/-- The order in which the matches are tried. -/
def Longest (l : List Rx.St) : Prop := l.Pairwise fun a b => a.rest.length ≤ b.rest.length

theorem mem_length {r : Rx} {s t : Rx.St} (h : t ∈ r.run s) : t.rest.length ≤ s.rest.length :=
  (Rx.run_suffix r s t h).length_le

/-- Of two matches of a repeated digit, the later leaves more, and it leaves a digit in front. -/
def Shrinks (a b : Rx.St) : Prop := a.rest.length < b.rest.length ∧ ∃ d ∈ b.rest.head?, isDigitV d.val = true

theorem upTo_shrinks (n : Nat) (s : Rx.St) : ((Rx.upTo (.cls isDigitV) n).run s).Pairwise Shrinks := by
  induction n generalizing s with
  | zero => simp [Rx.upTo, Rx.run]
  | succ n ih =>
    unfold Rx.upTo Rx.opt
    have e : (Rx.alt (.seq (.cls isDigitV) (.upTo (.cls isDigitV) n)) .eps).run s =
        ((Rx.cls isDigitV).run s).flatMap (Rx.upTo (.cls isDigitV) n).run ++ [s] := by simp [Rx.run]
    rw [e]
    obtain ⟨rest, caps⟩ := s
    cases rest with
    | nil => simp [Rx.run]
    | cons r rs =>
      rw [Rx.run_cls_cons]
      split
      · rename_i hr
        rw [List.flatMap_cons, List.flatMap_nil, List.append_nil, List.pairwise_append]
        refine ⟨ih _, by simp, ?_⟩
        intro a ha b hb
        have : b = ⟨r :: rs, caps⟩ := by simpa using hb
        subst this
        have := mem_length ha
        refine ⟨?_, r, rfl, hr⟩
        simp only [List.length_cons] at this ⊢
        omega
      · simp

theorem flatMap_longest {l : List Rx.St} (h : l.Pairwise Shrinks)
    (hs : ∀ a ∈ l, Longest ((Rx.star groupRx).run a)) : Longest (l.flatMap (Rx.star groupRx).run) := by
  unfold Longest
  rw [List.pairwise_flatMap]
  refine ⟨hs, h.imp ?_⟩
  rintro a b ⟨h1, d, hd, hv⟩ x hx y hy
  have := mem_length hx
  have hfail : groupRx.run b = [] := by
    obtain ⟨rest, caps⟩ := b
    refine Rx.seq_fail (Rx.cls_fail ?_)
    intro r hr
    have : r = d := by
      simp only at hd
      rw [hr] at hd
      injection hd
    rw [this]
    simp only [isDigitV, inRange, Bool.and_eq_true, Nat.ble_eq] at hv
    simp; omega
  rw [Rx.run_star, hfail] at hy
  have : y = b := by simpa using hy
  subst this
  omega

theorem groups_longest (s : Rx.St) : Longest ((Rx.star groupRx).run s) := by
  induction hn : s.rest.length using Nat.strongRecOn generalizing s with
  | _ n ih =>
    subst hn
    rw [Rx.run_star]
    unfold Longest
    rw [List.pairwise_append]
    refine ⟨?_, by simp, ?_⟩
    · apply flatMap_longest
      · apply List.Pairwise.filter
        show (((Rx.chr 0x3B).run s).flatMap (Rx.upTo (.cls isDigitV) 4).run).Pairwise Shrinks
        obtain ⟨rest, caps⟩ := s
        cases rest with
        | nil => simp [Rx.chr, Rx.run]
        | cons r rs =>
          unfold Rx.chr
          rw [Rx.run_cls_cons]
          split
          · rw [List.flatMap_cons, List.flatMap_nil, List.append_nil]; exact upTo_shrinks _ _
          · simp
      · intro a ha
        exact ih _ (of_decide_eq_true (List.mem_filter.mp ha).2) a rfl
    · intro a ha b hb
      have : b = s := by simpa using hb
      subst this
      obtain ⟨t, h1, h2⟩ := List.mem_flatMap.mp ha
      have := mem_length h2
      have := of_decide_eq_true (List.mem_filter.mp h1).2
      omega

theorem csi_longest (s : Rx.St) : Longest (csiRx.run s) := by
  rw [csiRx_eq]
  have h : Longest ((Rx.opt paramRx).run s) := by
    have e : (Rx.opt paramRx).run s =
        (((Rx.cls isDigitV).run s).flatMap (Rx.upTo (.cls isDigitV) 3).run).flatMap (Rx.star groupRx).run ++ [s] := by
      simp [Rx.opt, paramRx, Rx.run]
    rw [e]
    unfold Longest
    rw [List.pairwise_append]
    refine ⟨flatMap_longest ?_ (fun a _ => groups_longest a), by simp, ?_⟩
    · obtain ⟨rest, caps⟩ := s
      cases rest with
      | nil => simp [Rx.run]
      | cons r rs =>
        rw [Rx.run_cls_cons]
        split
        · rw [List.flatMap_cons, List.flatMap_nil, List.append_nil]; exact upTo_shrinks _ _
        · simp
    · intro a ha b hb
      have : b = s := by simpa using hb
      subst this
      obtain ⟨t, h1, h2⟩ := List.mem_flatMap.mp ha
      obtain ⟨u, h3, h4⟩ := List.mem_flatMap.mp h1
      have := mem_length h2
      have := mem_length h3
      have := mem_length h4
      omega
  show Longest (((Rx.opt paramRx).run s).flatMap (Rx.cls isFinal).run)
  unfold Longest at h ⊢
  rw [List.pairwise_flatMap]
  constructor
  · rintro ⟨rest, caps⟩ _
    cases rest with
    | nil => simp [Rx.run]
    | cons r rs => rw [Rx.run_cls_cons]; split <;> simp
  · refine h.imp ?_
    intro a b hab x hx y hy
    obtain ⟨_, _, e1, _⟩ := Rx.mem_cls hx
    obtain ⟨_, _, e2, _⟩ := Rx.mem_cls hy
    rw [e1, e2] at hab
    simpa using hab

theorem Spec.CsiRun.suffix {u y : List Rune} (h : CsiRun u y) : y <:+ u := by
  obtain ⟨p, f, e, _⟩ := h
  exact ⟨p ++ [f], by rw [e]; simp⟩

theorem Spec.CsiEnd.unique {u y z : List Rune} (h : CsiEnd u y) (h2 : CsiEnd u z) : y = z := by
  have e : y.length = z.length := Nat.le_antisymm (h.2 z h2.1) (h2.2 y h.1)
  have s1 := List.suffix_iff_eq_drop.mp h.1.suffix
  have s2 := List.suffix_iff_eq_drop.mp h2.1.suffix
  rw [s1, s2, e]

/-- The preferred control sequence is the longest. -/
theorem csi_first {u y : List Rune} : (∃ t, (csiRx.run ⟨u, []⟩).head? = some t ∧ t.rest = y) ↔ CsiEnd u y := by
  have hl := csi_longest ⟨u, []⟩
  cases hr : csiRx.run ⟨u, []⟩ with
  | nil =>
    constructor
    · rintro ⟨t, h, _⟩; simp at h
    · intro h
      have : (⟨y, []⟩ : Rx.St) ∈ csiRx.run ⟨u, []⟩ := mem_csi.mpr ⟨h.1, rfl⟩
      rw [hr] at this
      simp at this
  | cons t ts =>
    rw [hr] at hl
    have hend : CsiEnd u t.rest := by
      refine ⟨((mem_csi (s := ⟨u, []⟩) (t := t)).mp (by rw [hr]; simp)).1, ?_⟩
      intro z hz
      have hm : (⟨z, []⟩ : Rx.St) ∈ csiRx.run ⟨u, []⟩ := mem_csi.mpr ⟨hz, rfl⟩
      rw [hr] at hm
      rcases List.mem_cons.mp hm with h | h
      · rw [← h]; exact Nat.le_refl _
      · exact List.rel_of_pairwise_cons hl h
    constructor
    · rintro ⟨t', h, rfl⟩
      have : t = t' := by simpa using h
      subst this; exact hend
    · intro h; exact ⟨t, rfl, hend.unique h⟩

/-! ## Titles -/

theorem title_not_bell {q : Rune} (h : OneOf titleChars q) : q.val ≠ 7 := by
  rw [← oneOf_title, alnum_iff] at h
  omega

theorem Spec.BellEnd.unique {u y z : List Rune} (h : BellEnd u y) (h2 : BellEnd u z) : y = z := by
  obtain ⟨x, r, e, hr, hx⟩ := h
  obtain ⟨x', r', e', hr', hx'⟩ := h2
  subst e
  induction x generalizing x' with
  | nil =>
    cases x' with
    | nil => injection e'
    | cons q x' => injection e' with h _; subst h; exact absurd hr (title_not_bell (hx' _ (by simp)))
  | cons p x ih =>
    cases x' with
    | nil => injection e' with h _; subst h; exact absurd hr' (title_not_bell (hx _ (by simp)))
    | cons q x' =>
      injection e' with _ h
      exact ih (fun a ha => hx a (by simp [ha])) x' (fun a ha => hx' a (by simp [ha])) h

theorem bell_first {u y : List Rune} (caps : List (Nat × List Rune)) (hc : caps = []) :
    (∃ t, (bellRx.run ⟨u, caps⟩).head? = some t ∧ t.rest = y) ↔ BellEnd u y := by
  subst hc
  constructor
  · rintro ⟨t, h, rfl⟩
    obtain ⟨x, r, e, hr, hx⟩ := bell_shape (List.mem_of_head? h)
    exact ⟨x, r, e, hr, fun q hq => (oneOf_title q).mp (hx q hq)⟩
  · rintro ⟨x, r, e, hr, hx⟩
    obtain ⟨c, h⟩ := bell_head x r y (fun q hq => (oneOf_title q).mpr (hx q hq)) hr
    exact ⟨_, by rw [e]; exact h, rfl⟩

/-! ## The whole expression -/

/-- After the introducers. -/
theorem tail_first {u y : List Rune} : (∃ t, ((Rx.alt bellRx csiRx).run ⟨u, []⟩).head? = some t ∧ t.rest = y) ↔
    (BellEnd u y ∨ (¬ ∃ z, BellEnd u z) ∧ CsiEnd u y) := by
  have e : (Rx.alt bellRx csiRx).run ⟨u, []⟩ = bellRx.run ⟨u, []⟩ ++ csiRx.run ⟨u, []⟩ := rfl
  rw [e]
  cases hb : bellRx.run ⟨u, []⟩ with
  | nil =>
    have hno : ¬ ∃ z, BellEnd u z := by
      rintro ⟨z, hz⟩
      obtain ⟨t, h, _⟩ := (bell_first [] rfl).mpr hz
      rw [hb] at h
      simp at h
    rw [List.nil_append, csi_first]
    constructor
    · intro h; exact Or.inr ⟨hno, h⟩
    · rintro (h | h)
      · exact absurd ⟨y, h⟩ hno
      · exact h.2
  | cons t ts =>
    have hyes : BellEnd u t.rest := (bell_first [] rfl).mp ⟨t, by rw [hb]; rfl, rfl⟩
    constructor
    · rintro ⟨t', h, rfl⟩
      have : t = t' := by simpa using h
      subst this; exact Or.inl hyes
    · rintro (h | h)
      · exact ⟨t, rfl, hyes.unique h⟩
      · exact absurd ⟨_, hyes⟩ h.1

/-- Giving back introducers does not help. -/
theorem tail_none {u : List Rune} (h : (Rx.alt bellRx csiRx).run ⟨u, []⟩ = []) (i : List Rune)
    (hi : ∀ q ∈ i, OneOf introducers q) : (Rx.alt bellRx csiRx).run ⟨i ++ u, []⟩ = [] := by
  cases i with
  | nil => exact h
  | cons a i =>
    have hno : ∀ y, ¬ (BellEnd u y ∨ (¬ ∃ z, BellEnd u z) ∧ CsiEnd u y) := by
      intro y hy
      obtain ⟨t, h1, _⟩ := tail_first.mpr hy
      rw [h] at h1
      simp at h1
    have hb : ∀ y, ¬ BellEnd u y := fun y hy => hno y (Or.inl hy)
    have ha := (oneOf_intro a).mpr (hi a (by simp))
    simp only [isIntro, Bool.or_eq_true, beq_iff_eq] at ha
    cases hr : (Rx.alt bellRx csiRx).run ⟨a :: i ++ u, []⟩ with
    | nil => rfl
    | cons t ts =>
      exfalso
      rcases tail_first.mp ⟨t, by rw [hr]; rfl, rfl⟩ with ⟨x, r, e, h7, hx⟩ | ⟨_, ⟨p, f, e, hp, hf⟩, _⟩
      · -- the BEL is beyond the introducers
        have key : ∀ (i x : List Rune), (∀ q ∈ i, OneOf introducers q) → (∀ q ∈ x, OneOf titleChars q) →
            i ++ u = x ++ r :: t.rest → False := by
          intro i
          induction i with
          | nil => intro x _ hx e; exact hb _ ⟨x, r, e, h7, hx⟩
          | cons b i ih =>
            intro x hi hx e
            cases x with
            | nil =>
              injection e with e1 _
              have := (oneOf_intro b).mpr (hi b (by simp))
              rw [e1] at this
              simp only [isIntro, Bool.or_eq_true, beq_iff_eq] at this
              omega
            | cons c x =>
              injection e with _ e1
              exact ih x (fun q hq => hi q (by simp [hq])) (fun q hq => hx q (by simp [hq])) e1
        exact key (a :: i) x hi hx e
      · rcases hp with rfl | ⟨g, rest, rfl, h1, _, h3, _⟩
        · injection e with e1 _
          have := (oneOf_finals f).mpr hf
          rw [← e1] at this
          simp only [isFinal, isDigitV, inRange, Bool.or_eq_true, beq_iff_eq, Bool.and_eq_true, Nat.ble_eq] at this
          omega
        · cases g with
          | nil => simp at h1
          | cons d g =>
            injection e with e1 _
            have := (oneOf_digits d).mpr (h3 d (by simp))
            rw [← e1] at this
            simp only [isDigitV, inRange, Bool.and_eq_true, Nat.ble_eq] at this
            omega

theorem intros_run {i u : List Rune} (hi : ∀ q ∈ i, OneOf introducers q) (hu : ∀ q ∈ u.head?, ¬ OneOf introducers q) :
    (Rx.star (.cls isIntro)).run ⟨i ++ u, []⟩ = Rx.drops i u [] := by
  apply Rx.run_star_cls
  · intro r hr; exact (oneOf_intro r).mpr (hi r hr)
  · intro r hr
    rw [Bool.eq_false_iff]
    intro h
    exact hu r hr ((oneOf_intro r).mp h)

theorem drops_tail {i u : List Rune} (hi : ∀ q ∈ i, OneOf introducers q) :
    ((Rx.drops i u []).flatMap (Rx.alt bellRx csiRx).run).head? = ((Rx.alt bellRx csiRx).run ⟨u, []⟩).head? := by
  cases hr : (Rx.alt bellRx csiRx).run ⟨u, []⟩ with
  | nil =>
    have : (Rx.drops i u []).flatMap (Rx.alt bellRx csiRx).run = [] := by
      rw [List.flatMap_eq_nil_iff]
      intro s hs
      obtain ⟨a, b, h1, h2⟩ := Rx.mem_drops.mp hs
      rw [h2]
      exact tail_none hr b (fun q hq => hi q (by rw [h1]; simp [hq]))
    rw [this]
  | cons t ts => exact Rx.head_flatMap (Rx.drops_head _ _ _) (by rw [hr]; rfl)

/-- The preferred match after an escape character and its introducers. -/
theorem ansi_first_eq {e : Rune} {i u : List Rune} (he : e.val = 0x1B ∨ e.val = 0x9B)
    (hi : ∀ q ∈ i, OneOf introducers q) (hu : ∀ q ∈ u.head?, ¬ OneOf introducers q) :
    ansiRx.first (e :: (i ++ u)) = ((Rx.alt bellRx csiRx).run ⟨u, []⟩).head? := by
  unfold Rx.first ansiRx
  show (((Rx.cls isEsc).run ⟨e :: (i ++ u), []⟩).flatMap _).head? = _
  have hp : isEsc e.val = true := by simpa [isEsc] using he
  rw [Rx.run_cls_cons, if_pos hp, List.flatMap_cons, List.flatMap_nil, List.append_nil]
  show (((Rx.star (.cls isIntro)).run ⟨i ++ u, []⟩).flatMap _).head? = _
  rw [intros_run hi hu, drops_tail hi]

theorem split_intros (w : List Rune) : ∃ i u, w = i ++ u ∧ (∀ q ∈ i, OneOf introducers q) ∧
    ∀ q ∈ u.head?, ¬ OneOf introducers q := by
  induction w with
  | nil => exact ⟨[], [], rfl, by simp, by simp⟩
  | cons c w ih =>
    by_cases h : isIntro c.val = true
    · obtain ⟨i, u, e, h1, h2⟩ := ih
      refine ⟨c :: i, u, by rw [e]; rfl, ?_, h2⟩
      intro q hq
      rcases List.mem_cons.mp hq with h' | h'
      · rw [h']; exact (oneOf_intro c).mp h
      · exact h1 q h'
    · refine ⟨[], c :: w, rfl, by simp, ?_⟩
      intro q hq
      have : c = q := by simpa using hq
      subst this
      rwa [← oneOf_intro]

/-- C83, where the expression matches and how far: at every position it finds an escape sequence exactly when there is
one, and takes exactly that sequence. -/
theorem C83_match_exact (s y : List Rune) : (∃ t, ansiRx.first s = some t ∧ t.rest = y) ↔ SeqEnd s y := by
  constructor
  · rintro ⟨t, h, rfl⟩
    have hm := List.mem_of_head? h
    unfold ansiRx at hm
    obtain ⟨v, h1, _⟩ := Rx.mem_seq.mp hm
    obtain ⟨e, he, e1, _⟩ := Rx.mem_cls h1
    have he' : e.val = 0x1B ∨ e.val = 0x9B := by simpa [isEsc] using he
    simp only at e1
    obtain ⟨i, u, e2, hi, hu⟩ := split_intros v.rest
    rw [e2] at e1
    refine ⟨e, i, u, e1, he', hi, hu, ?_⟩
    rw [e1, ansi_first_eq he' hi hu] at h
    exact tail_first.mp ⟨t, h, rfl⟩
  · rintro ⟨e, i, u, rfl, he, hi, hu, h⟩
    rw [ansi_first_eq he hi hu]
    exact tail_first.mpr h

theorem Spec.SeqEnd.shorter {s y : List Rune} (h : SeqEnd s y) : y.length < s.length := by
  obtain ⟨e, i, u, rfl, _, _, _, h⟩ := h
  have : y.length ≤ u.length := by
    rcases h with ⟨x, r, rfl, _⟩ | ⟨_, h, _⟩
    · simp; omega
    · exact h.suffix.length_le
  simp; omega

theorem Spec.SeqEnd.unique {s y z : List Rune} (h : SeqEnd s y) (h2 : SeqEnd s z) : y = z := by
  obtain ⟨t, h1, rfl⟩ := (C83_match_exact s y).mpr h
  obtain ⟨t', h1', rfl⟩ := (C83_match_exact s z).mpr h2
  rw [h1] at h1'
  injection h1' with e
  rw [e]

theorem filtered_delete (s : List Rune) : Filtered s (ansiRx.delete s) := by
  induction hn : s.length using Nat.strongRecOn generalizing s with
  | _ n ih =>
    subst hn
    cases s with
    | nil => exact .nil
    | cons c cs =>
      rw [Rx.delete_cons]
      cases hf : ansiRx.first (c :: cs) with
      | none =>
        refine .keep ?_ (ih _ (by simp) cs rfl)
        rintro ⟨y, hy⟩
        obtain ⟨t, h, _⟩ := (C83_match_exact _ y).mpr hy
        rw [hf] at h
        exact nomatch h
      | some t =>
        have hs := (C83_match_exact (c :: cs) t.rest).mp ⟨t, hf, rfl⟩
        simp only
        rw [if_pos hs.shorter]
        exact .skip hs (ih _ hs.shorter t.rest rfl)

theorem Spec.Filtered.unique {s a b : List Rune} (h : Filtered s a) (h2 : Filtered s b) : a = b := by
  induction h generalizing b with
  | nil =>
    cases h2 with
    | nil => rfl
    | skip h _ => have := h.shorter; simp at this
  | keep hno _ ih =>
    cases h2 with
    | keep _ h => rw [ih h]
    | skip h _ => exact absurd ⟨_, h⟩ hno
  | skip h _ ih =>
    cases h2 with
    | nil => have := h.shorter; simp at this
    | keep hno _ => exact absurd ⟨_, h⟩ hno
    | skip h' h2 => rw [h'.unique h] at h2; exact ih h2

/-- C83: filtering a text deletes its escape sequences, found from left to right, and keeps everything else. -/
theorem C83_filter_exact (s out : Bytes) : filterANSI s = out ↔ ∃ r, Filtered (runes s) r ∧ out = unrunes r := by
  unfold filterANSI
  constructor
  · rintro rfl; exact ⟨_, filtered_delete _, rfl⟩
  · rintro ⟨r, h, rfl⟩
    rw [h.unique (filtered_delete _)]

theorem rune_bytes_pos (s : Bytes) : ∀ r ∈ runes s, 0 < r.bytes.length := by
  induction hn : s.length using Nat.strongRecOn generalizing s with
  | _ n ih =>
    subst hn
    cases s with
    | nil => simp [runes_nil]
    | cons b rest =>
      have hp := runeWidth_pos b rest
      intro r hr
      rw [runes_cons] at hr
      rcases List.mem_cons.mp hr with h | h
      · rw [h]; simp; omega
      · exact ih _ (by simp; omega) _ rfl r h

theorem unrunes_shorter {a b : List Rune} (h : a.Sublist b) (hl : a.length < b.length)
    (hb : ∀ r ∈ b, 0 < r.bytes.length) : (unrunes a).length < (unrunes b).length := by
  induction h with
  | slnil => simp at hl
  | cons c h _ =>
    have := (unrunes_sublist h).length_le
    have := hb c (by simp)
    rw [unrunes_cons, List.length_append]
    omega
  | cons_cons c _ ih =>
    have := ih (by simpa using hl) (fun r hr => hb r (by simp [hr]))
    rw [unrunes_cons, unrunes_cons, List.length_append, List.length_append]
    omega

/-- C83: a text is unchanged exactly when it has no escape sequence. -/
theorem C83_unchanged_exact (s : Bytes) : filterANSI s = s ↔ ∀ a b, runes s = a ++ b → ¬ ∃ y, SeqEnd b y := by
  have key : ∀ l : List Rune, (∀ a b, l = a ++ b → ¬ ∃ y, SeqEnd b y) → Filtered l l := by
    intro l h
    induction l with
    | nil => exact .nil
    | cons c l ih => exact .keep (h [] _ rfl) (ih (fun a b e => h (c :: a) b (by rw [e]; rfl)))
  have key2 : ∀ l : List Rune, (¬ ∀ a b, l = a ++ b → ¬ ∃ y, SeqEnd b y) → (ansiRx.delete l).length < l.length := by
    intro l h
    induction l with
    | nil =>
      exfalso; apply h
      rintro a b e ⟨y, hy⟩
      have h1 := hy.shorter
      rw [(List.append_eq_nil_iff.mp e.symm).2] at h1
      simp at h1
    | cons c l ih =>
      rw [Rx.delete_cons]
      cases hf : ansiRx.first (c :: l) with
      | some t =>
        have hs := (C83_match_exact (c :: l) t.rest).mp ⟨t, hf, rfl⟩
        simp only
        rw [if_pos hs.shorter]
        exact Nat.lt_of_le_of_lt (Rx.delete_sublist _ _).length_le hs.shorter
      | none =>
        simp only [List.length_cons]
        apply Nat.succ_lt_succ
        apply ih
        intro h'
        apply h
        intro a b e hb
        cases a with
        | nil =>
          obtain ⟨y, hy⟩ := hb
          simp only [List.nil_append] at e
          rw [← e] at hy
          obtain ⟨t, ht, _⟩ := (C83_match_exact _ y).mpr hy
          rw [hf] at ht
          exact nomatch ht
        | cons d a =>
          injection e with _ e
          exact h' a b e hb
  constructor
  · intro h
    apply Classical.byContradiction
    intro hc
    have h1 := key2 _ hc
    have h2 := Rx.delete_sublist ansiRx (runes s)
    have h3 : unrunes (ansiRx.delete (runes s)) = unrunes (runes s) := by rw [unrunes_runes]; exact h
    have h4 := unrunes_shorter h2 h1 (rune_bytes_pos s)
    rw [h3] at h4
    exact Nat.lt_irrefl _ h4
  · intro h
    unfold filterANSI
    rw [← (key _ h).unique (filtered_delete _), unrunes_runes]

/-- C38, exact: filtering again changes nothing exactly when the first pass left no escape sequence behind. -/
theorem C38_idempotent_exact (s : Bytes) : filterANSI (filterANSI s) = filterANSI s ↔
    ∀ a b, runes (filterANSI s) = a ++ b → ¬ ∃ y, SeqEnd b y := C83_unchanged_exact _

/-- Filtering several times. -/
def Spec.passes : Nat → Bytes → Bytes
  | 0, s => s
  | n + 1, s => passes n (filterANSI s)

/-- C38: filtering as many times as the text is long leaves no escape sequence, and further passes change nothing. -/
theorem C38_settles (s : Bytes) (n : Nat) (h : s.length ≤ n) : filterANSI (passes n s) = passes n s := by
  induction n generalizing s with
  | zero =>
    have : s = [] := List.length_eq_zero_iff.mp (by omega)
    subst this; rfl
  | succ n ih =>
    by_cases e : filterANSI s = s
    · have : ∀ k, passes k s = s := by
        intro k
        induction k with
        | zero => rfl
        | succ k ihk => rw [passes, e, ihk]
      rw [this, e]
    · have hs := C37_subsequence s
      have : (filterANSI s).length < s.length := by
        rcases Nat.lt_or_ge (filterANSI s).length s.length with h | h
        · exact h
        · exact absurd (hs.eq_of_length_le h) e
      exact ih _ (by omega)

/-- Nested sequences: the first pass joins the pieces of another one, the second removes it. -/
example : passes 1 (ascii "a\x1b\x1b[m[mb") = ascii "a\x1b[mb" ∧ passes 2 (ascii "a\x1b\x1b[m[mb") = ascii "ab" := by
  decide +kernel

/-! ## Examples -/

/-- The runes of an ASCII text. -/
def Spec.runesOf (s : String) : List Rune := (ascii s).map asciiRune

instance (s : String) (r : Rune) : Decidable (OneOf s r) := by unfold OneOf; infer_instance

/-- A title ended by BEL is taken up to the BEL. -/
example : SeqEnd (runesOf "\x1b]2;lex\x07rest") (runesOf "rest") :=
  ⟨asciiRune 0x1B, runesOf "]", runesOf "2;lex\x07rest", by decide, Or.inl rfl, by decide, by decide,
    Or.inl ⟨runesOf "2;lex", asciiRune 7, by decide, rfl, by decide⟩⟩

/-- Four digits and a fifth that ends the sequence. -/
example : (ansiRx.first (runesOf "\x1b[123456m")).map (·.rest) = some (runesOf "6m") := by decide +kernel

example : SeqEnd (runesOf "\x1b[123456m") (runesOf "6m") :=
  (C83_match_exact _ _).mp ⟨⟨runesOf "6m", []⟩, by rfl, rfl⟩

example : filterANSI (ascii "a\x1b[1;33mb\x1b[Qc\x1b[?25ld") = ascii "ab\x1b[Qcd" := by decide +kernel

end Verif
