import Verif.Proofs.Strings
/-!
# C84: what "trimmed" means in the stored text of a comment and in a login record
-/

namespace Verif

/-- The code points with the property White_Space. -/
def Spec.whitePoints : List Char :=
  ['\t', '\n', '\x0b', '\x0c', '\r', ' ', '\u0085', '\u00a0', '\u1680', '\u2000', '\u2001', '\u2002', '\u2003',
   '\u2004', '\u2005', '\u2006', '\u2007', '\u2008', '\u2009', '\u200a', '\u2028', '\u2029', '\u202f', '\u205f',
   '\u3000']

/-- Their encodings. -/
def Spec.whites : List Bytes := whitePoints.map String.utf8EncodeChar

/-- `t` is `s` without the white space around it. -/
def Spec.Trimmed (s t : Bytes) : Prop :=
  ∃ pre post : List Bytes, s = pre.flatten ++ t ++ post.flatten ∧ (∀ w ∈ pre, w ∈ whites) ∧ (∀ w ∈ post, w ∈ whites) ∧
    ∀ w ∈ whites, ¬ w <+: t ∧ ¬ w <:+ t

open Spec

theorem whites_eq : whites = [[9], [10], [11], [12], [13], [32], [0xC2, 0x85], [0xC2, 0xA0], [0xE1, 0x9A, 0x80],
    [0xE2, 0x80, 0x80], [0xE2, 0x80, 0x81], [0xE2, 0x80, 0x82], [0xE2, 0x80, 0x83], [0xE2, 0x80, 0x84],
    [0xE2, 0x80, 0x85], [0xE2, 0x80, 0x86], [0xE2, 0x80, 0x87], [0xE2, 0x80, 0x88], [0xE2, 0x80, 0x89],
    [0xE2, 0x80, 0x8A], [0xE2, 0x80, 0xA8], [0xE2, 0x80, 0xA9], [0xE2, 0x80, 0xAF], [0xE2, 0x81, 0x9F],
    [0xE3, 0x80, 0x80]] := by decide +kernel

theorem byte_cases {P : UInt8 → Prop} (h : ∀ n : Fin 256, P (UInt8.ofFin n)) (a : UInt8) : P a := by
  have := h a.toFin
  simpa using this

theorem white1 (a : UInt8) : isAsciiSpace a = true ↔ [a] ∈ whites := by
  rw [whites_eq]
  refine byte_cases (P := fun a => isAsciiSpace a = true ↔ [a] ∈ ([_, _, _, _, _, _, _, _, _, _, _, _, _, _, _, _, _, _, _,
    _, _, _, _, _, _] : List Bytes)) ?_ a
  decide +kernel

theorem white2 (a b : UInt8) : isSpace2 a b = true ↔ [a, b] ∈ whites := by
  rw [whites_eq]
  simp [isSpace2]
  constructor
  · rintro ⟨rfl, rfl | rfl⟩ <;> simp
  · rintro (⟨rfl, rfl⟩ | ⟨rfl, rfl⟩) <;> simp

theorem e280 (c : UInt8) : isSpaceE280 c = true ↔ c ∈ ([0x80, 0x81, 0x82, 0x83, 0x84, 0x85, 0x86, 0x87, 0x88, 0x89,
    0x8A, 0xA8, 0xA9, 0xAF] : Bytes) := by
  refine byte_cases (P := fun c => isSpaceE280 c = true ↔ c ∈ ([_, _, _, _, _, _, _, _, _, _, _, _, _, _] : Bytes)) ?_ c
  decide +kernel

theorem white3 (a b c : UInt8) : isSpace3 a b c = true ↔ [a, b, c] ∈ whites := by
  rw [whites_eq]
  simp only [isSpace3, Bool.or_eq_true, Bool.and_eq_true, beq_iff_eq, e280, List.mem_cons, List.not_mem_nil, or_false,
    List.cons.injEq, and_true, reduceCtorEq, and_false, false_or]
  constructor
  · rintro (((⟨⟨rfl, rfl⟩, rfl⟩ | ⟨⟨rfl, rfl⟩, h⟩) | ⟨⟨rfl, rfl⟩, rfl⟩) | ⟨⟨rfl, rfl⟩, rfl⟩)
    · simp
    · rcases h with h | h | h | h | h | h | h | h | h | h | h | h | h | h <;> subst h <;> simp
    · simp
    · simp
  · intro h
    rcases h with h | h | h | h | h | h | h | h | h | h | h | h | h | h | h | h | h <;>
      obtain ⟨rfl, rfl, rfl⟩ := h <;> simp

theorem white_size {w : Bytes} (h : w ∈ whites) : (∃ a, w = [a]) ∨ (∃ a b, w = [a, b]) ∨ ∃ a b c, w = [a, b, c] := by
  rw [whites_eq] at h
  simp only [List.mem_cons, List.not_mem_nil, or_false] at h
  rcases h with h | h | h | h | h | h | h | h | h | h | h | h | h | h | h | h | h | h | h | h | h | h | h | h | h <;>
    subst h <;> simp

/-- No white space in front: the three tests fail. -/
theorem bare_front {a b c : UInt8} {t : Bytes} (h1 : ¬ isAsciiSpace a = true) (h2 : ¬ isSpace2 a b = true)
    (h3 : ¬ isSpace3 a b c = true) (w : Bytes) (hw : w ∈ whites) : ¬ w <+: a :: b :: c :: t := by
  intro hp
  rcases white_size hw with ⟨x, rfl⟩ | ⟨x, y, rfl⟩ | ⟨x, y, z, rfl⟩
  · simp [List.cons_prefix_cons] at hp
    subst hp; exact h1 ((white1 _).2 hw)
  · simp [List.cons_prefix_cons] at hp
    obtain ⟨rfl, rfl⟩ := hp; exact h2 ((white2 _ _).2 hw)
  · simp [List.cons_prefix_cons] at hp
    obtain ⟨rfl, rfl, rfl⟩ := hp; exact h3 ((white3 _ _ _).2 hw)

theorem no_front_nil (w : Bytes) (hw : w ∈ whites) : ¬ w <+: [] := by
  intro hp
  rcases white_size hw with ⟨x, rfl⟩ | ⟨x, y, rfl⟩ | ⟨x, y, z, rfl⟩ <;> simp at hp

theorem bare_front1 {a : UInt8} (h1 : ¬ isAsciiSpace a = true) (w : Bytes) (hw : w ∈ whites) : ¬ w <+: [a] := by
  intro hp
  rcases white_size hw with ⟨x, rfl⟩ | ⟨x, y, rfl⟩ | ⟨x, y, z, rfl⟩ <;> simp [List.cons_prefix_cons] at hp
  subst hp; exact h1 ((white1 _).2 hw)

theorem bare_front2 {a b : UInt8} (h1 : ¬ isAsciiSpace a = true) (h2 : ¬ isSpace2 a b = true) (w : Bytes)
    (hw : w ∈ whites) : ¬ w <+: [a, b] := by
  intro hp
  rcases white_size hw with ⟨x, rfl⟩ | ⟨x, y, rfl⟩ | ⟨x, y, z, rfl⟩ <;> simp [List.cons_prefix_cons] at hp
  · subst hp; exact h1 ((white1 _).2 hw)
  · obtain ⟨rfl, rfl⟩ := hp; exact h2 ((white2 _ _).2 hw)

theorem front_more {s t : Bytes} {w : Bytes} (hw : w ∈ whites)
    (h : ∃ pre : List Bytes, s = pre.flatten ++ t ∧ ∀ x ∈ pre, x ∈ whites) :
    ∃ pre : List Bytes, w ++ s = pre.flatten ++ t ∧ ∀ x ∈ pre, x ∈ whites := by
  obtain ⟨pre, e, hp⟩ := h
  refine ⟨w :: pre, by simp [e], ?_⟩
  intro x hx
  rcases List.mem_cons.1 hx with rfl | hx
  · exact hw
  · exact hp x hx

theorem trimLeftAux_trims : ∀ (n : Nat) (s : Bytes), s.length ≤ n →
    (∃ pre : List Bytes, s = pre.flatten ++ trimLeftAux n s ∧ ∀ w ∈ pre, w ∈ whites) ∧
      ∀ w ∈ whites, ¬ w <+: trimLeftAux n s
  | 0, s, h => by
    have : s = [] := List.length_eq_zero_iff.1 (by omega)
    subst this
    exact ⟨⟨[], rfl, fun _ h => absurd h List.not_mem_nil⟩, no_front_nil⟩
  | n + 1, s, h => by
    have stay : ∀ t : Bytes, ∃ pre : List Bytes, t = pre.flatten ++ t ∧ ∀ w ∈ pre, w ∈ whites :=
      fun t => ⟨[], rfl, fun _ h => absurd h List.not_mem_nil⟩
    match s with
    | [] => exact ⟨stay [], no_front_nil⟩
    | [a] =>
      simp only [trimLeftAux]
      split
      · rename_i ha
        exact ⟨front_more (s := []) ((white1 a).1 ha) (stay []), no_front_nil⟩
      · rename_i ha
        exact ⟨stay _, bare_front1 ha⟩
    | [a, b] =>
      simp only [trimLeftAux]
      split
      · rename_i ha
        obtain ⟨i1, i2⟩ := trimLeftAux_trims n [b] (by simp at h ⊢; omega)
        exact ⟨front_more (s := [b]) ((white1 a).1 ha) i1, i2⟩
      · rename_i ha
        split
        · rename_i hb
          exact ⟨front_more (s := []) ((white2 a b).1 hb) (stay []), no_front_nil⟩
        · rename_i hb
          exact ⟨stay _, bare_front2 ha hb⟩
    | a :: b :: c :: t =>
      simp only [trimLeftAux]
      simp only [List.length_cons] at h
      split
      · rename_i ha
        obtain ⟨i1, i2⟩ := trimLeftAux_trims n (b :: c :: t) (by simp only [List.length_cons]; omega)
        exact ⟨front_more (s := b :: c :: t) ((white1 a).1 ha) i1, i2⟩
      · rename_i ha
        split
        · rename_i hb
          obtain ⟨i1, i2⟩ := trimLeftAux_trims n (c :: t) (by simp only [List.length_cons]; omega)
          exact ⟨front_more (s := c :: t) ((white2 a b).1 hb) i1, i2⟩
        · rename_i hb
          split
          · rename_i hc
            obtain ⟨i1, i2⟩ := trimLeftAux_trims n t (by omega)
            exact ⟨front_more (s := t) ((white3 a b c).1 hc) i1, i2⟩
          · rename_i hc
            exact ⟨stay _, bare_front ha hb hc⟩

/-! The same from the end, on the reversed text. -/

theorem rev_prefix {w s : Bytes} : w <:+ s.reverse ↔ w.reverse <+: s := by
  rw [← List.reverse_prefix, List.reverse_reverse]

theorem bare_back {a b c : UInt8} {t : Bytes} (h1 : ¬ isAsciiSpace a = true) (h2 : ¬ isSpace2 b a = true)
    (h3 : ¬ isSpace3 c b a = true) (w : Bytes) (hw : w ∈ whites) : ¬ w <:+ (a :: b :: c :: t).reverse := by
  rw [rev_prefix]
  intro hp
  rcases white_size hw with ⟨x, rfl⟩ | ⟨x, y, rfl⟩ | ⟨x, y, z, rfl⟩ <;> simp [List.cons_prefix_cons] at hp
  · subst hp; exact h1 ((white1 _).2 hw)
  · obtain ⟨rfl, rfl⟩ := hp; exact h2 ((white2 _ _).2 hw)
  · obtain ⟨rfl, rfl, rfl⟩ := hp; exact h3 ((white3 _ _ _).2 hw)

theorem no_back_nil (w : Bytes) (hw : w ∈ whites) : ¬ w <:+ ([] : Bytes).reverse := by
  intro hp
  rcases white_size hw with ⟨x, rfl⟩ | ⟨x, y, rfl⟩ | ⟨x, y, z, rfl⟩ <;> simp at hp

theorem bare_back1 {a : UInt8} (h1 : ¬ isAsciiSpace a = true) (w : Bytes) (hw : w ∈ whites) : ¬ w <:+ [a].reverse := by
  rw [rev_prefix]
  intro hp
  rcases white_size hw with ⟨x, rfl⟩ | ⟨x, y, rfl⟩ | ⟨x, y, z, rfl⟩ <;> simp [List.cons_prefix_cons] at hp
  subst hp; exact h1 ((white1 _).2 hw)

theorem bare_back2 {a b : UInt8} (h1 : ¬ isAsciiSpace a = true) (h2 : ¬ isSpace2 b a = true) (w : Bytes)
    (hw : w ∈ whites) : ¬ w <:+ [a, b].reverse := by
  rw [rev_prefix]
  intro hp
  rcases white_size hw with ⟨x, rfl⟩ | ⟨x, y, rfl⟩ | ⟨x, y, z, rfl⟩ <;> simp [List.cons_prefix_cons] at hp
  · subst hp; exact h1 ((white1 _).2 hw)
  · obtain ⟨rfl, rfl⟩ := hp; exact h2 ((white2 _ _).2 hw)

theorem back_more {s t : Bytes} {w : Bytes} (hw : w.reverse ∈ whites)
    (h : ∃ post : List Bytes, s.reverse = t.reverse ++ post.flatten ∧ ∀ x ∈ post, x ∈ whites) :
    ∃ post : List Bytes, (w ++ s).reverse = t.reverse ++ post.flatten ∧ ∀ x ∈ post, x ∈ whites := by
  obtain ⟨post, e, hp⟩ := h
  refine ⟨post ++ [w.reverse], by simp [e], ?_⟩
  intro x hx
  rcases List.mem_append.1 hx with hx | hx
  · exact hp x hx
  · rw [List.mem_singleton.1 hx]; exact hw

theorem trimRightAux_trims : ∀ (n : Nat) (s : Bytes), s.length ≤ n →
    (∃ post : List Bytes, s.reverse = (trimRightAux n s).reverse ++ post.flatten ∧ ∀ w ∈ post, w ∈ whites) ∧
      ∀ w ∈ whites, ¬ w <:+ (trimRightAux n s).reverse
  | 0, s, h => by
    have : s = [] := List.length_eq_zero_iff.1 (by omega)
    subst this
    exact ⟨⟨[], rfl, fun _ h => absurd h List.not_mem_nil⟩, no_back_nil⟩
  | n + 1, s, h => by
    have stay : ∀ t : Bytes, ∃ post : List Bytes, t.reverse = t.reverse ++ post.flatten ∧ ∀ w ∈ post, w ∈ whites :=
      fun t => ⟨[], by simp, fun _ h => absurd h List.not_mem_nil⟩
    match s with
    | [] => exact ⟨stay [], no_back_nil⟩
    | [a] =>
      simp only [trimRightAux]
      split
      · rename_i ha
        exact ⟨back_more (s := []) (w := [a]) ((white1 a).1 ha) (stay []), no_back_nil⟩
      · rename_i ha
        exact ⟨stay _, bare_back1 ha⟩
    | [a, b] =>
      simp only [trimRightAux]
      split
      · rename_i ha
        obtain ⟨i1, i2⟩ := trimRightAux_trims n [b] (by simp at h ⊢; omega)
        exact ⟨back_more (s := [b]) (w := [a]) ((white1 a).1 ha) i1, i2⟩
      · rename_i ha
        split
        · rename_i hb
          exact ⟨back_more (s := []) (w := [a, b]) ((white2 b a).1 hb) (stay []), no_back_nil⟩
        · rename_i hb
          exact ⟨stay _, bare_back2 ha hb⟩
    | a :: b :: c :: t =>
      simp only [trimRightAux]
      simp only [List.length_cons] at h
      split
      · rename_i ha
        obtain ⟨i1, i2⟩ := trimRightAux_trims n (b :: c :: t) (by simp only [List.length_cons]; omega)
        exact ⟨back_more (s := b :: c :: t) (w := [a]) ((white1 a).1 ha) i1, i2⟩
      · rename_i ha
        split
        · rename_i hb
          obtain ⟨i1, i2⟩ := trimRightAux_trims n (c :: t) (by simp only [List.length_cons]; omega)
          exact ⟨back_more (s := c :: t) (w := [a, b]) ((white2 b a).1 hb) i1, i2⟩
        · rename_i hb
          split
          · rename_i hc
            obtain ⟨i1, i2⟩ := trimRightAux_trims n t (by omega)
            exact ⟨back_more (s := t) (w := [a, b, c]) ((white3 c b a).1 hc) i1, i2⟩
          · rename_i hc
            exact ⟨stay _, bare_back ha hb hc⟩

theorem trimSpace_trimmed (s : Bytes) : Trimmed s (trimSpace s) := by
  obtain ⟨⟨pre, e1, h1⟩, n1⟩ := trimLeftAux_trims s.length s (Nat.le_refl _)
  have hle : (trimLeft s).reverse.length ≤ (trimLeft s).length := by simp
  obtain ⟨⟨post, e2, h2⟩, n2⟩ := trimRightAux_trims (trimLeft s).length (trimLeft s).reverse hle
  rw [List.reverse_reverse] at e2
  refine ⟨pre, post, ?_, h1, h2, fun w hw => ⟨fun hp => n1 w hw ?_, n2 w hw⟩⟩
  · rw [List.append_assoc]
    change s = pre.flatten ++ (trimRight (trimLeft s) ++ post.flatten)
    unfold trimRight
    rw [← e2]
    exact e1
  · change w <+: trimLeft s
    rw [e2]
    exact hp.trans (List.prefix_append _ _)

/-! There is only one such text. -/

theorem front_code {v w x y : Bytes} (hv : v ∈ whites) (hw : w ∈ whites) (h : v ++ x = w ++ y) : x = y := by
  have key : ∀ v ∈ whites, ∀ w ∈ whites, v <+: w → v = w := by rw [whites_eq]; decide +kernel
  have e : v = w := by
    rcases List.prefix_or_prefix_of_prefix (l₃ := v ++ x) (List.prefix_append v x) (h ▸ List.prefix_append w y) with h | h
    · exact key v hv w hw h
    · exact (key w hw v hv h).symm
  subst e
  exact List.append_cancel_left h

theorem back_code {v w x y : Bytes} (hv : v ∈ whites) (hw : w ∈ whites) (h : x ++ v = y ++ w) : x = y := by
  have key : ∀ v ∈ whites, ∀ w ∈ whites, v <:+ w → v = w := by rw [whites_eq]; decide +kernel
  have e : v = w := by
    rcases List.suffix_or_suffix_of_suffix (l₃ := x ++ v) (List.suffix_append x v) (h ▸ List.suffix_append y w) with h | h
    · exact key v hv w hw h
    · exact (key w hw v hv h).symm
  subst e
  exact List.append_cancel_right h

theorem front_unique : ∀ (p q : List Bytes) (x y : Bytes), (∀ w ∈ p, w ∈ whites) → (∀ w ∈ q, w ∈ whites) →
    (∀ w ∈ whites, ¬ w <+: x) → (∀ w ∈ whites, ¬ w <+: y) → p.flatten ++ x = q.flatten ++ y → x = y
  | [], [], x, y, _, _, _, _, h => by simpa using h
  | [], w :: q, x, y, _, hq, hx, _, h => by
    refine absurd ?_ (hx w (hq w (List.mem_cons_self ..)))
    simp only [List.flatten_nil, List.nil_append, List.flatten_cons, List.append_assoc] at h
    exact h ▸ List.prefix_append _ _
  | w :: p, [], x, y, hp, _, _, hy, h => by
    refine absurd ?_ (hy w (hp w (List.mem_cons_self ..)))
    simp only [List.flatten_nil, List.nil_append, List.flatten_cons, List.append_assoc] at h
    exact h ▸ List.prefix_append _ _
  | v :: p, w :: q, x, y, hp, hq, hx, hy, h => by
    simp only [List.flatten_cons, List.append_assoc] at h
    exact front_unique p q x y (fun w hw => hp w (List.mem_cons_of_mem _ hw)) (fun w hw => hq w (List.mem_cons_of_mem _ hw))
      hx hy (front_code (hp v (List.mem_cons_self ..)) (hq w (List.mem_cons_self ..)) h)

theorem back_unique : ∀ (p q : List Bytes) (x y : Bytes), (∀ w ∈ p, w ∈ whites) → (∀ w ∈ q, w ∈ whites) →
    (∀ w ∈ whites, ¬ w <:+ x) → (∀ w ∈ whites, ¬ w <:+ y) → x ++ p.reverse.flatten = y ++ q.reverse.flatten → x = y
  | [], [], x, y, _, _, _, _, h => by simpa using h
  | [], w :: q, x, y, _, hq, hx, _, h => by
    refine absurd ?_ (hx w (hq w (List.mem_cons_self ..)))
    simp only [List.reverse_nil, List.flatten_nil, List.append_nil, List.reverse_cons, List.flatten_append,
      List.flatten_cons, ← List.append_assoc] at h
    exact h ▸ List.suffix_append _ _
  | w :: p, [], x, y, hp, _, _, hy, h => by
    refine absurd ?_ (hy w (hp w (List.mem_cons_self ..)))
    simp only [List.reverse_nil, List.flatten_nil, List.append_nil, List.reverse_cons, List.flatten_append,
      List.flatten_cons, ← List.append_assoc] at h
    exact h ▸ List.suffix_append _ _
  | v :: p, w :: q, x, y, hp, hq, hx, hy, h => by
    simp only [List.reverse_cons, List.flatten_nil, List.append_nil, List.flatten_append,
      List.flatten_cons, ← List.append_assoc] at h
    exact back_unique p q x y (fun w hw => hp w (List.mem_cons_of_mem _ hw)) (fun w hw => hq w (List.mem_cons_of_mem _ hw))
      hx hy (back_code (hp v (List.mem_cons_self ..)) (hq w (List.mem_cons_self ..)) h)

/-- An encoding does not start in the text and end in the white space after it. -/
theorem front_across {t : Bytes} (ht : t ≠ []) (post : List Bytes) (hp : ∀ w ∈ post, w ∈ whites)
    (hn : ∀ w ∈ whites, ¬ w <+: t) : ∀ w ∈ whites, ¬ w <+: t ++ post.flatten := by
  intro w hw h
  match post, hp with
  | [], _ => exact hn w hw (by simpa using h)
  | v :: post, hp =>
    have hv := hp v (List.mem_cons_self ..)
    have key : ∀ w ∈ whites, ∀ v ∈ whites, v ≠ [] ∧ ∀ b ∈ w.tail, v.head? ≠ some b := by rw [whites_eq]; decide +kernel
    obtain ⟨hvn, hk⟩ := key w hw v hv
    rcases List.prefix_or_prefix_of_prefix h (List.prefix_append t _) with h' | ⟨z, hz⟩
    · exact hn w hw h'
    · match z, hz with
      | [], hz => exact hn w hw (by rw [← hz]; simp)
      | b :: z, hz =>
        match t, v, ht, hvn with
        | x :: t, c :: v, _, _ =>
          rw [← hz, List.prefix_append_right_inj] at h
          simp only [List.flatten_cons, List.cons_append, List.cons_prefix_cons] at h
          refine hk b ?_ (by rw [h.1]; rfl)
          rw [← hz]
          simp

theorem trimmed_unique {s t u : Bytes} (h1 : Trimmed s t) (h2 : Trimmed s u) : t = u := by
  obtain ⟨p, q, e, hp, hq, hn⟩ := h1
  obtain ⟨p', q', e', hp', hq', hn'⟩ := h2
  have all : ∀ {a b : List Bytes}, (∀ w ∈ a, w ∈ whites) → (∀ w ∈ b, w ∈ whites) → ∀ w ∈ a ++ b, w ∈ whites :=
    fun h1 h2 w hw => (List.mem_append.1 hw).elim (h1 w) (h2 w)
  by_cases ht : t = [] <;> by_cases hu : u = []
  · rw [ht, hu]
  · exfalso
    subst ht
    have := front_unique (p ++ q) p' [] (u ++ q'.flatten) (all hp hq) hp' no_front_nil
      (front_across hu q' hq' fun w hw => (hn' w hw).1) (by simp [← List.append_assoc, ← e', e])
    exact hu (List.append_eq_nil_iff.1 this.symm).1
  · exfalso
    subst hu
    have := front_unique p (p' ++ q') (t ++ q.flatten) [] hp (all hp' hq')
      (front_across ht q hq fun w hw => (hn w hw).1) no_front_nil (by simp [← List.append_assoc, ← e, e'])
    exact ht (List.append_eq_nil_iff.1 this).1
  · have := front_unique p p' (t ++ q.flatten) (u ++ q'.flatten) hp hp'
      (front_across ht q hq fun w hw => (hn w hw).1) (front_across hu q' hq' fun w hw => (hn' w hw).1)
      (by rw [← List.append_assoc, ← e, ← List.append_assoc, ← e'])
    exact back_unique q.reverse q'.reverse t u (fun w hw => hq w (List.mem_reverse.1 hw))
      (fun w hw => hq' w (List.mem_reverse.1 hw)) (fun w hw => (hn w hw).2) (fun w hw => (hn' w hw).2) (by simpa using this)

/-- C84, the trimming in it (and in C39, C40): a text is trimmed to what is left without the white space around it. -/
theorem C84_trimmed (s t : Bytes) : trimSpace s = t ↔ Trimmed s t :=
  ⟨fun h => h ▸ trimSpace_trimmed s, fun h => trimmed_unique (trimSpace_trimmed s) h⟩

example : Trimmed (ascii " \t" ++ [0xE3, 0x80, 0x80] ++ ascii "a b" ++ [0xE3, 0x80, 0x80] ++ ascii "\n") (ascii "a b") :=
  (C84_trimmed _ _).1 (by decide +kernel)

end Verif
