import Verif.Model.Tool
/-!
# C57: command-line options
-/

namespace Verif

/-- The pairs an argument list stands for: an option takes the next argument, whatever it looks like; other arguments are
skipped; an option at the very end is dropped. -/
inductive Spec.Pairs : List Bytes → List (Bytes × Bytes) → Prop
  | nil : Pairs [] []
  | skip {a rest l} : (∀ k, a ≠ ascii "--" ++ k) → Pairs rest l → Pairs (a :: rest) l
  | trailing {k} : Pairs [ascii "--" ++ k] []
  | pair {k v rest l} : Pairs rest l → Pairs ((ascii "--" ++ k) :: v :: rest) ((k, v) :: l)

/-- The value of a key: that of the last pair with the key. -/
def Spec.lastValue (l : List (Bytes × Bytes)) (k : Bytes) : Option Bytes := (l.reverse.find? (fun p => p.1 = k)).map (·.2)

theorem dashes_prefix (a : Bytes) : (ascii "--").isPrefixOf a = true ↔ ∃ k, a = ascii "--" ++ k := by
  rw [List.isPrefixOf_iff_prefix]
  exact ⟨fun ⟨k, h⟩ => ⟨k, h.symm⟩, fun ⟨k, h⟩ => ⟨k, h.symm⟩⟩

theorem Spec.lastValue_cons (k v : Bytes) (l : List (Bytes × Bytes)) (x : Bytes) :
    Spec.lastValue ((k, v) :: l) x = (Spec.lastValue l x <|> if x = k then some v else none) := by
  unfold Spec.lastValue
  rw [List.reverse_cons, List.find?_append]
  cases h : l.reverse.find? (fun p => p.1 = x) with
  | none =>
    by_cases hk : k = x
    · simp [hk]
    · have hk' : ¬ x = k := fun e => hk e.symm
      simp [hk, hk']
  | some p => simp

theorem parseArgsLoop_pairs (args : List Bytes) (l : List (Bytes × Bytes)) : ∀ index, Spec.Pairs (args.drop index) l → ∀ m x,
    parseArgsLoop args index m x = (Spec.lastValue l x <|> m x) := by
  intro index h
  generalize hd : args.drop index = d at h
  induction h generalizing index with
  | nil =>
    intro m x
    unfold parseArgsLoop
    rw [dif_pos (List.drop_eq_nil_iff.mp hd)]
    simp [Spec.lastValue]
  | @skip a rest l ha _ ih =>
    intro m x
    have hlt : index < args.length := by
      rcases Nat.lt_or_ge index args.length with h | h
      · exact h
      · rw [List.drop_eq_nil_of_le h] at hd; cases hd
    rw [List.drop_eq_getElem_cons hlt] at hd
    injection hd with h1 h2
    unfold parseArgsLoop
    rw [dif_neg (by omega)]
    simp only [h1]
    rw [if_neg (by rw [dashes_prefix]; rintro ⟨k, hk⟩; exact ha k hk)]
    exact ih _ h2 m x
  | @trailing k =>
    intro m x
    have hlt : index < args.length := by
      rcases Nat.lt_or_ge index args.length with h | h
      · exact h
      · rw [List.drop_eq_nil_of_le h] at hd; cases hd
    rw [List.drop_eq_getElem_cons hlt] at hd
    injection hd with h1 h2
    unfold parseArgsLoop
    rw [dif_neg (by omega)]
    simp only [h1]
    rw [if_pos ((dashes_prefix _).mpr ⟨k, rfl⟩), dif_pos (List.drop_eq_nil_iff.mp h2)]
    simp [Spec.lastValue]
  | @pair k v rest l _ ih =>
    intro m x
    have hlt : index < args.length := by
      rcases Nat.lt_or_ge index args.length with h | h
      · exact h
      · rw [List.drop_eq_nil_of_le h] at hd; cases hd
    rw [List.drop_eq_getElem_cons hlt] at hd
    injection hd with h1 h2
    have hlt2 : index + 1 < args.length := by
      rcases Nat.lt_or_ge (index + 1) args.length with h | h
      · exact h
      · rw [List.drop_eq_nil_of_le h] at h2; cases h2
    rw [List.drop_eq_getElem_cons hlt2] at h2
    injection h2 with h3 h4
    unfold parseArgsLoop
    rw [dif_neg (by omega)]
    simp only [h1]
    rw [if_pos ((dashes_prefix _).mpr ⟨k, rfl⟩), dif_neg (by omega), h3, ih _ h4, Spec.lastValue_cons]
    have : List.drop 2 (ascii "--" ++ k) = k := rfl
    rw [this]
    unfold StrMap.insert
    cases Spec.lastValue l x with
    | none => by_cases hk : x = k <;> simp [hk]
    | some y => simp

/-- Every argument list stands for exactly one list of pairs. -/
theorem Spec.Pairs.exists_unique : ∀ (n : Nat) (args : List Bytes), args.length ≤ n →
    ∃ l, Spec.Pairs args l ∧ ∀ l', Spec.Pairs args l' → l' = l := by
  have key : ∀ k : Bytes, ¬ ∀ j, ascii "--" ++ k ≠ ascii "--" ++ j := fun k h => h k rfl
  intro n
  induction n with
  | zero =>
    intro args h
    obtain rfl := List.length_eq_zero_iff.mp (Nat.le_zero.mp h)
    exact ⟨[], .nil, fun l' h => by cases h; rfl⟩
  | succ n ih =>
    intro args h
    match args with
    | [] => exact ⟨[], .nil, fun l' h => by cases h; rfl⟩
    | a :: rest =>
      by_cases ha : ∃ k, a = ascii "--" ++ k
      · obtain ⟨k, rfl⟩ := ha
        match rest with
        | [] =>
          refine ⟨[], .trailing, ?_⟩
          intro l' h'
          generalize hx : [ascii "--" ++ k] = xs at h'
          cases h' with
          | nil => cases hx
          | skip hs _ => injection hx with h1 _; subst h1; exact absurd hs (key k)
          | trailing => rfl
          | pair _ => injection hx with _ h2; cases h2
        | v :: rest =>
          obtain ⟨l, h1, h2⟩ := ih rest (by simp at h; omega)
          refine ⟨(k, v) :: l, .pair h1, ?_⟩
          intro l' h'
          generalize hx : (ascii "--" ++ k) :: v :: rest = xs at h'
          cases h' with
          | nil => cases hx
          | skip hs _ => injection hx with h1 _; subst h1; exact absurd hs (key k)
          | trailing => injection hx with _ h3; cases h3
          | pair hp =>
            injection hx with h3 h4
            injection h4 with h4 h5
            subst h4 h5
            have := List.append_cancel_left h3
            subst this
            rw [h2 _ hp]
      · obtain ⟨l, h1, h2⟩ := ih rest (by simpa using h)
        have ha' : ∀ k, a ≠ ascii "--" ++ k := fun k e => ha ⟨k, e⟩
        refine ⟨l, .skip ha' h1, ?_⟩
        intro l' h'
        generalize hx : a :: rest = xs at h'
        cases h' with
        | nil => cases hx
        | skip _ hp => injection hx with _ h4; subst h4; exact h2 _ hp
        | trailing => injection hx with h3 _; exact absurd h3 (ha' _)
        | pair _ => injection hx with h3 _; exact absurd h3 (ha' _)

/-- **C57.** The map holds, for every key, the value of the last pair with that key among the arguments behind the
subcommand; and nothing else. -/
theorem C57_options (cmd : Bytes) (args : List Bytes) : ∃ l, Spec.Pairs args l ∧ (∀ l', Spec.Pairs args l' → l' = l) ∧
    ∀ k, parseArgsToMap (cmd :: args) k = Spec.lastValue l k := by
  obtain ⟨l, h1, h2⟩ := Spec.Pairs.exists_unique _ args (Nat.le_refl _)
  refine ⟨l, h1, h2, fun k => ?_⟩
  unfold parseArgsToMap
  rw [parseArgsLoop_pairs (cmd :: args) l 1 h1]
  simp

/-- **C57.** A list of well-formed pairs, with or without a trailing option, is read back, later pairs first. -/
theorem C57_well_formed (cmd : Bytes) (l : List (Bytes × Bytes)) (tail : Option Bytes) (k : Bytes) :
    parseArgsToMap (cmd :: (l.flatMap (fun p => [ascii "--" ++ p.1, p.2]) ++ (tail.map (ascii "--" ++ ·)).toList)) k =
      Spec.lastValue l k := by
  unfold parseArgsToMap
  rw [parseArgsLoop_pairs _ l 1]
  · simp
  · show Spec.Pairs (_ ++ _) l
    induction l with
    | nil =>
      cases tail with
      | none => exact .nil
      | some t => exact .trailing
    | cons p l ih => exact .pair ih

/-- **C57.** No arguments at all: an empty map. -/
theorem C57_empty (k : Bytes) : parseArgsToMap [] k = none := by
  unfold parseArgsToMap parseArgsLoop
  simp

/-- A later pair overrides an earlier one; an option swallows the next argument even if it looks like an option. -/
example : parseArgsToMap [ascii "add_board", ascii "--id", ascii "a", ascii "x", ascii "--id", ascii "--title"] (ascii "id") =
      some (ascii "--title") ∧
    Spec.Pairs [ascii "--id", ascii "a", ascii "x"] [(ascii "id", ascii "a")] := by
  constructor
  · obtain ⟨l, h1, h2, h3⟩ := C57_options (ascii "add_board") [ascii "--id", ascii "a", ascii "x", ascii "--id", ascii "--title"]
    have hx : Spec.Pairs [ascii "--id", ascii "a", ascii "x", ascii "--id", ascii "--title"]
        [(ascii "id", ascii "a"), (ascii "id", ascii "--title")] :=
      .pair (.skip (by intro k h; exact absurd (congrArg List.head? h) (by simp [ascii])) (.pair .nil))
    rw [h3, ← h2 _ hx]
    decide
  · exact .pair (.skip (by intro k h; exact absurd (congrArg List.head? h) (by simp [ascii])) .nil)

end Verif
