import Verif.Spec.Json
import Verif.Proofs.Big5
/-!
# Reading what the JSON writer wrote
-/

namespace Verif
open Spec

/-! ## Strings -/

theorem cleaned_char {n : Nat} (h : Scalar n) (t : Bytes) : cleaned (utf8Char n ++ t) = utf8Char n ++ cleaned t := by
  unfold cleaned
  rw [runes_utf8Char h]
  rfl

/-- A text is left as it is. -/
theorem cleaned_text {cs : List Nat} (h : ∀ c ∈ cs, Scalar c) : cleaned (utf8Text cs) = utf8Text cs := by
  induction cs with
  | nil => rfl
  | cons c cs ih =>
    simp only [utf8Text, List.flatMap_cons] at ih ⊢
    rw [cleaned_char (h c (by simp)), ih (fun d hd => h d (by simp [hd]))]

/-- What `cleaned` returns is always a text. -/
theorem cleaned_isText (s : Bytes) : ∃ cs, (∀ c ∈ cs, Scalar c) ∧ cleaned s = utf8Text cs := by
  induction hn : s.length using Nat.strongRecOn generalizing s with
  | _ n ih =>
    cases s with
    | nil => exact ⟨[], by simp, rfl⟩
    | cons b s =>
      rcases rune_cases b s with ⟨n, t, hs, e⟩ | ⟨_, e⟩
      · have hl := congrArg List.length e
        have := List.length_pos_iff.mpr (utf8Char_ne_nil n)
        simp only [List.length_cons, List.length_append] at hl
        obtain ⟨cs, h1, h2⟩ := ih t.length (by subst hn; simp only [List.length_cons]; omega) t rfl
        refine ⟨n :: cs, by intro c hc; exact (List.mem_cons.mp hc).elim (fun e => e ▸ hs) (h1 c), ?_⟩
        rw [e, cleaned_char hs, h2]
        rfl
      · obtain ⟨cs, h1, h2⟩ := ih s.length (by subst hn; simp) s rfl
        refine ⟨0xFFFD :: cs, by intro c hc; exact (List.mem_cons.mp hc).elim (fun e => e ▸ Or.inr (by omega)) (h1 c), ?_⟩
        have : cleaned (b :: s) = utf8Char 0xFFFD ++ cleaned s := by
          unfold cleaned
          rw [e]
          rfl
        rw [this, h2]
        rfl

theorem readChars_u (a b c d : UInt8) (r : Bytes) (na nb nc nd : Nat) (ha : hexVal a = some na) (hb : hexVal b = some nb)
    (hc : hexVal c = some nc) (hd : hexVal d = some nd) (hs : ¬ (0xD800 ≤ na * 4096 + nb * 256 + nc * 16 + nd ∧ na * 4096 + nb * 256 + nc * 16 + nd < 0xE000)) :
    readChars (92 :: 117 :: a :: b :: c :: d :: r) =
      (readChars r).map (fun p => (utf8Char (na * 4096 + nb * 256 + nc * 16 + nd) ++ p.1, p.2)) := by
  rw [readChars]
  simp only [ha, hb, hc, hd, Option.bind_eq_bind, Option.bind_some, if_neg hs]
  cases readChars r <;> rfl

theorem readChars_esc (e x : UInt8) (r : Bytes) (hx : simpleEscape e = some x) :
    readChars (92 :: e :: r) = (readChars r).map (fun p => (x :: p.1, p.2)) := by
  have he : e ≠ 117 := by
    rintro rfl
    have : simpleEscape 117 = none := by decide
    rw [this] at hx
    cases hx
  rw [readChars]
  · simp only [hx, Option.bind_eq_bind, Option.bind_some]
    cases readChars r <;> rfl
  · intro _ _ _ _ _ h
    exact absurd h he

theorem readChars_raw (b : UInt8) (r : Bytes) (h1 : ¬ b < 32) (h2 : b ≠ 34) (h3 : b ≠ 92) :
    readChars (b :: r) = (readChars r).map (fun p => (b :: p.1, p.2)) := by
  rw [readChars]
  · rw [if_neg (by simp only [not_or]; exact ⟨h1, h3⟩)]
    cases readChars r <;> rfl
  · exact fun e => h2 e
  · intro _ _ _ _ _ e _; exact h3 e
  · intro _ _ e _; exact h3 e

theorem hexVal_ascii : ∀ b : Fin 128, hexVal (hexLower (b.val / 16)) = some (b.val / 16) ∧ hexVal (hexLower (b.val % 16)) = some (b.val % 16) := by
  decide +kernel

theorem readChars_ascii (b : UInt8) (hb : b < 0x80) (r : Bytes) :
    readChars (quoteAscii b ++ r) = (readChars r).map (fun p => (b :: p.1, p.2)) := by
  have hn : b.toNat < 128 := by rw [UInt8.lt_iff_toNat_lt] at hb; simpa using hb
  unfold quoteAscii
  by_cases h1 : b = 92 ∨ b = 34
  · rw [if_pos h1]
    exact readChars_esc b b r (by unfold simpleEscape; rw [if_pos (h1.elim (fun h => Or.inr (Or.inl h)) Or.inl)])
  rw [if_neg h1]
  by_cases h2 : b = 10
  · subst h2; exact readChars_esc 110 10 r (by decide)
  rw [if_neg h2]
  by_cases h3 : b = 13
  · subst h3; exact readChars_esc 114 13 r (by decide)
  rw [if_neg h3]
  by_cases h4 : b = 9
  · subst h4; exact readChars_esc 116 9 r (by decide)
  rw [if_neg h4]
  by_cases h5 : b < 32 ∨ b = 60 ∨ b = 62 ∨ b = 38
  · rw [if_pos h5]
    obtain ⟨x1, x2⟩ := hexVal_ascii ⟨b.toNat, hn⟩
    have e0 : hexVal 48 = some 0 := by decide
    have := readChars_u 48 48 _ _ r 0 0 _ _ e0 e0 x1 x2 (by omega)
    dsimp only at this
    rw [show 0 * 4096 + 0 * 256 + b.toNat / 16 * 16 + b.toNat % 16 = b.toNat by omega] at this
    rw [utf8Char, if_pos hn, UInt8.ofNat_toNat] at this
    exact this
  · rw [if_neg h5]
    simp only [not_or] at h1 h5
    exact readChars_raw b r h5.1 h1.2 h1.1

theorem readChars_raws (x r : Bytes) (h : ∀ b ∈ x, ¬ b < 0x80) :
    readChars (x ++ r) = (readChars r).map (fun p => (x ++ p.1, p.2)) := by
  induction x with
  | nil => rw [List.nil_append]; cases readChars r <;> rfl
  | cons b x ih =>
    have hb := h b (by simp)
    have hn : 128 ≤ b.toNat := by rw [UInt8.lt_iff_toNat_lt] at hb; simpa using hb
    rw [List.cons_append, readChars_raw b _ (by rw [UInt8.lt_iff_toNat_lt]; simp; omega) (by rintro rfl; revert hn; decide) (by rintro rfl; revert hn; decide),
      ih (fun c hc => h c (by simp [hc]))]
    cases readChars r <;> rfl

theorem utf8Char_high {n : Nat} (h : Scalar n) (h8 : 0x80 ≤ n) : ∀ b ∈ utf8Char n, ¬ b < 0x80 := by
  unfold Scalar at h
  intro b hb
  rw [UInt8.lt_iff_toNat_lt]
  unfold utf8Char at hb
  rw [if_neg (by omega)] at hb
  split at hb
  · simp only [List.mem_cons, List.not_mem_nil, or_false] at hb
    rcases hb with rfl | rfl <;> simp only [UInt8.toNat_ofNat', UInt8.reduceToNat] <;> omega
  split at hb
  · simp only [List.mem_cons, List.not_mem_nil, or_false] at hb
    rcases hb with rfl | rfl | rfl <;> simp only [UInt8.toNat_ofNat', UInt8.reduceToNat] <;> omega
  · simp only [List.mem_cons, List.not_mem_nil, or_false] at hb
    rcases hb with rfl | rfl | rfl | rfl <;> simp only [UInt8.toNat_ofNat', UInt8.reduceToNat] <;> omega

theorem utf8Char_wide {n : Nat} (h8 : 0x80 ≤ n) : (utf8Char n).length ≠ 1 := by
  unfold utf8Char
  rw [if_neg (by omega)]
  split
  · simp
  split <;> simp

theorem readChars_rune {n : Nat} (h : Scalar n) (r : Bytes) :
    readChars (quoteRune ⟨n, utf8Char n⟩ ++ r) = (readChars r).map (fun p => (utf8Char n ++ p.1, p.2)) := by
  unfold quoteRune
  dsimp only
  by_cases h1 : n < 0x80
  · rw [if_pos h1, readChars_ascii _ (by rw [UInt8.lt_iff_toNat_lt]; simp only [UInt8.toNat_ofNat', UInt8.reduceToNat]; omega), utf8Char, if_pos h1]
    rfl
  rw [if_neg h1, if_neg (fun e => utf8Char_wide (by omega) e.2)]
  by_cases h2 : n = 0x2028 ∨ n = 0x2029
  · rw [if_pos h2]
    rcases h2 with rfl | rfl
    · exact readChars_u 50 48 50 56 r 2 0 2 8 (by decide) (by decide) (by decide) (by decide) (by omega)
    · exact readChars_u 50 48 50 57 r 2 0 2 9 (by decide) (by decide) (by decide) (by decide) (by omega)
  · rw [if_neg h2]
    exact readChars_raws _ _ (utf8Char_high h (by omega))

/-- A quoted string is read back, with U+FFFD for what is no text. -/
theorem readChars_quote (s r : Bytes) : readChars ((runes s).flatMap quoteRune ++ 34 :: r) = some (cleaned s, r) := by
  induction hn : s.length using Nat.strongRecOn generalizing s with
  | _ k ih =>
    cases s with
    | nil => rfl
    | cons b s =>
      rcases rune_cases b s with ⟨n, t, hs, e⟩ | ⟨_, e⟩
      · have hl := congrArg List.length e
        have := List.length_pos_iff.mpr (utf8Char_ne_nil n)
        simp only [List.length_cons, List.length_append] at hl
        rw [e, cleaned_char hs, runes_utf8Char hs, List.flatMap_cons, List.append_assoc, readChars_rune hs,
          ih t.length (by subst hn; simp only [List.length_cons]; omega) t rfl]
        rfl
      · have : cleaned (b :: s) = utf8Char 0xFFFD ++ cleaned s := by
          unfold cleaned
          rw [e]
          rfl
        rw [this, e, List.flatMap_cons, List.append_assoc]
        have hq : quoteRune ⟨0xFFFD, [b]⟩ = [92, 117, 102, 102, 102, 100] := by
          unfold quoteRune
          rfl
        rw [hq]
        have := readChars_u 102 102 102 100 ((runes s).flatMap quoteRune ++ 34 :: r) 15 15 15 13 (by decide) (by decide) (by decide) (by decide) (by omega)
        rw [ih s.length (by subst hn; simp) s rfl] at this
        exact this

/-! ## Numbers -/

/-- What may follow a value: not a digit, nor a point, nor the start of an exponent. -/
def Ends (r : Bytes) : Prop := ∀ b, r.head? = some b → isDec b = false ∧ b ≠ 46 ∧ b ≠ 101 ∧ b ≠ 69

theorem takeWhile_dec (ds r : Bytes) (h : ∀ b ∈ ds, isDec b = true) (hr : ∀ b, r.head? = some b → isDec b = false) :
    (ds ++ r).takeWhile isDec = ds ∧ (ds ++ r).dropWhile isDec = r := by
  induction ds with
  | nil =>
    cases r with
    | nil => exact ⟨rfl, rfl⟩
    | cons b r =>
      have := hr b rfl
      constructor <;> simp [this]
  | cons b ds ih =>
    have := h b (by simp)
    obtain ⟨i1, i2⟩ := ih (fun c hc => h c (by simp [hc]))
    constructor
    · simp [this, i1]
    · simp [this, i2]

theorem isDec_iff (b : UInt8) : isDec b = true ↔ 48 ≤ b.toNat ∧ b.toNat ≤ 57 := by
  simp [isDec, UInt8.le_iff_toNat_le]

theorem decAux_head (f n : Nat) (h : n < f) (h0 : (decAux f n).head? = some 48) : n = 0 := by
  induction f generalizing n with
  | zero => omega
  | succ f ih =>
    simp only [decAux] at h0
    split at h0
    · simp only [List.head?_cons, Option.some.injEq] at h0
      have := congrArg UInt8.toNat h0
      simp only [UInt8.toNat_ofNat', UInt8.reduceToNat] at this
      omega
    · have hne : decAux f (n / 10) ≠ [] := by
        cases f with
        | zero => omega
        | succ f => simp only [decAux]; split <;> simp
      have h0 : (decAux f (n / 10)).head? = some 48 := by
        cases hd : decAux f (n / 10) with
        | nil => exact absurd hd hne
        | cons a t => rw [hd] at h0; exact h0
      have := ih (n / 10) (by omega) h0
      omega

theorem readNat_dec (n : Nat) (r : Bytes) (hr : Ends r) : readNat (dec n ++ r) = some (n, r) := by
  obtain ⟨h1, h2⟩ := takeWhile_dec (dec n) r (fun b hb => (isDec_iff b).mpr (dec_digits n b hb)) (fun b hb => (hr b hb).1)
  unfold readNat
  simp only [h1, h2]
  rw [if_neg]
  · exact congrArg (fun x => some (x, r)) (decVal_dec n)
  · rintro (h | ⟨h, h'⟩ | h | h | h)
    · exact dec_ne_nil n h
    · have := decAux_head (n + 1) n (by omega) h
      subst this
      exact h' rfl
    · exact (hr _ h).2.1 rfl
    · exact (hr _ h).2.2.1 rfl
    · exact (hr _ h).2.2.2 rfl

theorem readNum_dec (n : Int) (r : Bytes) (hr : Ends r) : readNum (decInt n ++ r) = some (n, r) := by
  unfold decInt
  by_cases h : n < 0
  · rw [if_pos h, List.cons_append, readNum, readNat_dec _ _ hr]
    simp only [Option.bind_eq_bind, Option.bind_some]
    congr 2
    omega
  · rw [if_neg h, readNum, readNat_dec _ _ hr]
    · simp only [Option.bind_eq_bind, Option.bind_some]
      congr 2
      omega
    · intro r' e
      obtain ⟨b, t, hb⟩ : ∃ b t, dec n.natAbs = b :: t := by
        cases hd : dec n.natAbs with
        | nil => exact absurd hd (dec_ne_nil _)
        | cons b t => exact ⟨b, t, rfl⟩
      have := dec_digits n.natAbs b (by rw [hb]; simp)
      rw [hb, List.cons_append] at e
      have := (List.cons.inj e).1
      subst this
      revert this
      decide

/-! ## Values -/

mutual
/-- The value with U+FFFD for what is no text. -/
def Json.clean : Json → Json
  | .null => .null
  | .num n => .num n
  | .str s => .str (cleaned s)
  | .arr l => .arr (cleanItems l)
  | .obj l => .obj (cleanFields l)

def cleanItems : List Json → List Json
  | [] => []
  | v :: l => v.clean :: cleanItems l

def cleanFields : List (Bytes × Json) → List (Bytes × Json)
  | [] => []
  | (k, v) :: l => (cleaned k, v.clean) :: cleanFields l
end

theorem skipWs_spaces (n : Nat) (s : Bytes) : skipWs (List.replicate n 32 ++ s) = skipWs s := by
  induction n with
  | zero => rfl
  | succ n ih => rw [List.replicate_succ, List.cons_append, skipWs, if_pos (Or.inl rfl), ih]

theorem skipWs_jsonNewline (d : Nat) (s : Bytes) : skipWs (jsonNewline d ++ s) = skipWs s := by
  unfold jsonNewline
  rw [List.cons_append, skipWs, if_pos (Or.inr (Or.inl rfl)), skipWs_spaces]

def Solid (b : UInt8) : Prop := ¬ (b = 32 ∨ b = 10 ∨ b = 13 ∨ b = 9)

theorem skipWs_solid {b : UInt8} (h : Solid b) (s : Bytes) : skipWs (b :: s) = b :: s := by
  rw [skipWs, if_neg h]

theorem readValue_ws {s s' : Bytes} (h : skipWs s = skipWs s') (n : Nat) : readValue n s = readValue n s' := by
  cases n with
  | zero => rfl
  | succ n => rw [readValue, readValue, h]

theorem readFields_ws {s s' : Bytes} (h : skipWs s = skipWs s') (n : Nat) : readFields n s = readFields n s' := by
  cases n with
  | zero => rfl
  | succ n => rw [readFields, readFields, h]

theorem readItems_ws {s s' : Bytes} (h : skipWs s = skipWs s') (n : Nat) : readItems n s = readItems n s' := by
  cases n with
  | zero => rfl
  | succ n => rw [readItems, readItems, readValue_ws h]

theorem decInt_head (n : Int) : ∃ b t, decInt n = b :: t ∧ (b = 45 ∨ (48 ≤ b.toNat ∧ b.toNat ≤ 57)) := by
  cases h : decInt n with
  | nil =>
    unfold decInt at h
    split at h
    · cases h
    · exact absurd h (dec_ne_nil _)
  | cons b t => exact ⟨b, t, rfl, decInt_bytes n b (by rw [h]; simp)⟩

/-- A written value starts with a byte that is neither white space nor a closing bracket. -/
theorem render_head (v : Json) (d : Nat) : ∃ b t, v.render d = b :: t ∧ Solid b ∧ b ≠ 93 ∧ b ≠ 125 := by
  match v with
  | .null => exact ⟨110, _, rfl, by unfold Solid; decide, by decide, by decide⟩
  | .num n =>
    obtain ⟨b, t, h, hb⟩ := decInt_head n
    refine ⟨b, t, by rw [Json.render, h], ?_, ?_, ?_⟩
    · rintro (rfl | rfl | rfl | rfl) <;> revert hb <;> decide
    · rintro rfl; revert hb; decide
    · rintro rfl; revert hb; decide
  | .str s => exact ⟨34, _, rfl, by unfold Solid; decide, by decide, by decide⟩
  | .arr [] => exact ⟨91, _, rfl, by unfold Solid; decide, by decide, by decide⟩
  | .arr (v :: l) => exact ⟨91, _, rfl, by unfold Solid; decide, by decide, by decide⟩
  | .obj [] => exact ⟨123, _, rfl, by unfold Solid; decide, by decide, by decide⟩
  | .obj ((k, v) :: l) => exact ⟨123, _, rfl, by unfold Solid; decide, by decide, by decide⟩

mutual
/-- Rounds the reader needs. -/
def Json.need : Json → Nat
  | .null => 1
  | .num _ => 1
  | .str _ => 1
  | .arr l => needItems l + 1
  | .obj l => needFields l + 1

def needItems : List Json → Nat
  | [] => 0
  | v :: l => v.need + needItems l + 1

def needFields : List (Bytes × Json) → Nat
  | [] => 0
  | (_, v) :: l => v.need + needFields l + 1
end

theorem ends_of {b : UInt8} {r : Bytes} (h : isDec b = false ∧ b ≠ 46 ∧ b ≠ 101 ∧ b ≠ 69) : Ends (b :: r) := by
  intro c hc
  cases hc
  exact h

theorem ends_jsonNewline (d : Nat) (r : Bytes) : Ends (jsonNewline d ++ r) := ends_of (by decide)

theorem ends_items (d d' : Nat) (l : List Json) (r : Bytes) : Ends (renderItems d l ++ (jsonNewline d' ++ r)) := by
  cases l with
  | nil => exact ends_jsonNewline _ _
  | cons v l => exact ends_of (by decide)

theorem ends_fields (d d' : Nat) (l : List (Bytes × Json)) (r : Bytes) : Ends (renderFields d l ++ (jsonNewline d' ++ r)) := by
  cases l with
  | nil => exact ends_jsonNewline _ _
  | cons p l => obtain ⟨k, v⟩ := p; exact ends_of (by decide)

theorem readValue_str (n : Nat) (r : Bytes) : readValue (n + 1) (34 :: r) = (readChars r).bind (fun p => some (.str p.1, p.2)) := rfl

theorem readValue_arr (n : Nat) (b : UInt8) (r t : Bytes) (h : skipWs r = b :: t) (hb : b ≠ 93) :
    readValue (n + 1) (91 :: r) = (readItems n (b :: t)).bind (fun p => some (.arr p.1, p.2)) := by
  have : readValue (n + 1) (91 :: r) = (match skipWs r with
      | 93 :: r' => some (.arr [], r')
      | r' => (readItems n r').bind (fun p => some (.arr p.1, p.2))) := rfl
  rw [this, h]
  split
  · rename_i h'; exact absurd (List.cons.inj h').1 hb
  · rfl

theorem readValue_obj (n : Nat) (b : UInt8) (r t : Bytes) (h : skipWs r = b :: t) (hb : b ≠ 125) :
    readValue (n + 1) (123 :: r) = (readFields n (b :: t)).bind (fun p => some (.obj p.1, p.2)) := by
  have : readValue (n + 1) (123 :: r) = (match skipWs r with
      | 125 :: r' => some (.obj [], r')
      | r' => (readFields n r').bind (fun p => some (.obj p.1, p.2))) := rfl
  rw [this, h]
  split
  · rename_i h'; exact absurd (List.cons.inj h').1 hb
  · rfl

theorem readItems_more (n : Nat) (s r t : Bytes) (v : Json) (h : readValue n s = some (v, r)) (hr : skipWs r = 44 :: t) :
    readItems (n + 1) s = (readItems n t).bind (fun p => some (v :: p.1, p.2)) := by
  rw [readItems, h]
  simp only [Option.bind_eq_bind, Option.bind_some, hr]

theorem readItems_last (n : Nat) (s r t : Bytes) (v : Json) (h : readValue n s = some (v, r)) (hr : skipWs r = 93 :: t) :
    readItems (n + 1) s = some ([v], t) := by
  rw [readItems, h]
  simp only [Option.bind_eq_bind, Option.bind_some, hr]

theorem readFields_more (n : Nat) (r u t w x k : Bytes) (v : Json) (hk : readChars r = some (k, u)) (hu : skipWs u = 58 :: w)
    (h : readValue n w = some (v, t)) (ht : skipWs t = 44 :: x) :
    readFields (n + 1) (34 :: r) = (readFields n x).bind (fun p => some ((k, v) :: p.1, p.2)) := by
  have : readFields (n + 1) (34 :: r) = (readChars r).bind (fun p => match skipWs p.2 with
      | 58 :: r'' => (readValue n r'').bind fun q => match skipWs q.2 with
        | 44 :: t' => (readFields n t').bind fun z => some ((p.1, q.1) :: z.1, z.2)
        | 125 :: t' => some ([(p.1, q.1)], t')
        | _ => none
      | _ => none) := rfl
  rw [this, hk]
  simp only [Option.bind_some, hu, h, ht]

theorem readFields_last (n : Nat) (r u t w x k : Bytes) (v : Json) (hk : readChars r = some (k, u)) (hu : skipWs u = 58 :: w)
    (h : readValue n w = some (v, t)) (ht : skipWs t = 125 :: x) :
    readFields (n + 1) (34 :: r) = some ([(k, v)], x) := by
  have : readFields (n + 1) (34 :: r) = (readChars r).bind (fun p => match skipWs p.2 with
      | 58 :: r'' => (readValue n r'').bind fun q => match skipWs q.2 with
        | 44 :: t' => (readFields n t').bind fun z => some ((p.1, q.1) :: z.1, z.2)
        | 125 :: t' => some ([(p.1, q.1)], t')
        | _ => none
      | _ => none) := rfl
  rw [this, hk]
  simp only [Option.bind_some, hu, h, ht]

theorem solid_punct : Solid 44 ∧ Solid 93 ∧ Solid 125 ∧ Solid 58 ∧ Solid 34 := by unfold Solid; decide

theorem quote_append (k r : Bytes) : quote k ++ r = 34 :: ((runes k).flatMap quoteRune ++ 34 :: r) := by simp [quote]

theorem skipWs_space (s : Bytes) : skipWs (32 :: s) = skipWs s := by rw [skipWs, if_pos (Or.inl rfl)]

mutual
theorem read_value : (v : Json) → ∀ (d n : Nat) (r : Bytes), v.need ≤ n → Ends r → readValue n (v.render d ++ r) = some (v.clean, r)
  | .null, d, n, r, hn, hr => by
    cases n with
    | zero => simp [Json.need] at hn
    | succ n => rfl
  | .num x, d, n, r, hn, hr => by
    cases n with
    | zero => simp [Json.need] at hn
    | succ n =>
      obtain ⟨b, t, h, hb⟩ := decInt_head x
      have hs : Solid b := by rintro (rfl | rfl | rfl | rfl) <;> revert hb <;> decide
      rw [Json.render, readValue, h, List.cons_append, skipWs_solid hs]
      have e := readNum_dec x r hr
      rw [h, List.cons_append] at e
      split
      · rename_i h'; rw [(List.cons.inj h').1] at hb; exact absurd hb (by decide)
      · rename_i h'; rw [(List.cons.inj h').1] at hb; exact absurd hb (by decide)
      · rename_i h'; rw [(List.cons.inj h').1] at hb; exact absurd hb (by decide)
      · rename_i h'; rw [(List.cons.inj h').1] at hb; exact absurd hb (by decide)
      · rw [e]; rfl
  | .str s, d, n, r, hn, hr => by
    cases n with
    | zero => simp [Json.need] at hn
    | succ n =>
      rw [Json.render, quote_append, readValue_str, readChars_quote]
      rfl
  | .arr [], d, n, r, hn, hr => by
    cases n with
    | zero => simp [Json.need] at hn
    | succ n => rfl
  | .arr (v :: l), d, n, r, hn, hr => by
    cases n with
    | zero => simp [Json.need] at hn
    | succ n =>
      have ih := read_items v l (d + 1) d n r (by simp only [Json.need, needItems] at hn ⊢; omega)
      obtain ⟨b, t, hb, hs, h93, _⟩ := render_head v (d + 1)
      rw [hb, List.cons_append] at ih
      rw [Json.render]
      simp only [List.cons_append, List.append_assoc, List.nil_append]
      rw [readValue_arr n b _ _ (by rw [skipWs_jsonNewline, hb, List.cons_append, skipWs_solid hs]) h93, ih]
      rfl
  | .obj [], d, n, r, hn, hr => by
    cases n with
    | zero => simp [Json.need] at hn
    | succ n => rfl
  | .obj ((k, v) :: l), d, n, r, hn, hr => by
    cases n with
    | zero => simp [Json.need] at hn
    | succ n =>
      have ih := read_fields k v l (d + 1) d n r (by simp only [Json.need, needFields] at hn ⊢; omega)
      rw [quote_append] at ih
      rw [Json.render]
      simp only [List.cons_append, List.append_assoc, List.nil_append]
      rw [readValue_obj n 34 _ _ (by rw [skipWs_jsonNewline, quote_append, skipWs_solid solid_punct.2.2.2.2]) (by decide), ih]
      rfl
termination_by _ _ n => n

theorem read_items : (v : Json) → (l : List Json) → ∀ (d d' n : Nat) (r : Bytes), v.need + needItems l + 1 ≤ n →
    readItems n (v.render d ++ (renderItems d l ++ (jsonNewline d' ++ 93 :: r))) = some (cleanItems (v :: l), r)
  | v, [], d, d', n, r, hn => by
    cases n with
    | zero => omega
    | succ n =>
      have iv := read_value v d n (renderItems d [] ++ (jsonNewline d' ++ 93 :: r)) (by omega) (ends_items _ _ _ _)
      rw [readItems_last n _ _ r _ iv (by rw [renderItems, List.nil_append, skipWs_jsonNewline, skipWs_solid solid_punct.2.1])]
      rfl
  | v, w :: l, d, d', n, r, hn => by
    cases n with
    | zero => omega
    | succ n =>
      simp only [needItems] at hn
      have iv := read_value v d n (renderItems d (w :: l) ++ (jsonNewline d' ++ 93 :: r)) (by omega) (ends_items _ _ _ _)
      have il := read_items w l d d' n r (by omega)
      rw [readItems_more n _ _ (jsonNewline d ++ (w.render d ++ (renderItems d l ++ (jsonNewline d' ++ 93 :: r)))) _ iv (by
        rw [renderItems]
        simp only [List.cons_append, List.append_assoc]
        rw [skipWs_solid solid_punct.1]), readItems_ws (skipWs_jsonNewline d _), il]
      rfl
termination_by _ _ _ _ n => n

theorem read_fields : (k : Bytes) → (v : Json) → (l : List (Bytes × Json)) → ∀ (d d' n : Nat) (r : Bytes), v.need + needFields l + 1 ≤ n →
    readFields n (quote k ++ 58 :: 32 :: (v.render d ++ (renderFields d l ++ (jsonNewline d' ++ 125 :: r)))) = some (cleanFields ((k, v) :: l), r)
  | k, v, [], d, d', n, r, hn => by
    cases n with
    | zero => omega
    | succ n =>
      have iv := read_value v d n (renderFields d [] ++ (jsonNewline d' ++ 125 :: r)) (by omega) (ends_fields _ _ _ _)
      rw [quote_append, readFields_last n _ _ _ _ r _ _ (readChars_quote k _) (skipWs_solid solid_punct.2.2.2.1 _)
        (by rw [readValue_ws (skipWs_space _)]; exact iv) (by rw [renderFields, List.nil_append, skipWs_jsonNewline, skipWs_solid solid_punct.2.2.1])]
      rfl
  | k, v, (k', w) :: l, d, d', n, r, hn => by
    cases n with
    | zero => omega
    | succ n =>
      simp only [needFields] at hn
      have iv := read_value v d n (renderFields d ((k', w) :: l) ++ (jsonNewline d' ++ 125 :: r)) (by omega) (ends_fields _ _ _ _)
      have il := read_fields k' w l d d' n r (by omega)
      rw [quote_append, readFields_more n _ _ _ _
        (jsonNewline d ++ (quote k' ++ 58 :: 32 :: (w.render d ++ (renderFields d l ++ (jsonNewline d' ++ 125 :: r))))) _ _ (readChars_quote k _)
        (skipWs_solid solid_punct.2.2.2.1 _) (by rw [readValue_ws (skipWs_space _)]; exact iv) (by
        rw [renderFields]
        simp only [List.cons_append, List.append_assoc]
        rw [skipWs_solid solid_punct.1]), readFields_ws (skipWs_jsonNewline d _), il]
      rfl
termination_by _ _ _ _ _ n => n
end

/-! ## Whole texts -/

theorem newline_length (d : Nat) : (jsonNewline d).length = 2 * d + 1 := by simp [jsonNewline]

mutual
theorem need_le : (v : Json) → ∀ d, v.need ≤ (v.render d).length
  | .null, d => by simp [Json.need, Json.render, ascii]
  | .num x, d => by
    obtain ⟨b, t, h, _⟩ := decInt_head x
    simp [Json.need, Json.render, h]
  | .str s, d => by simp [Json.need, Json.render, quote]
  | .arr [], d => by rw [Json.render]; simp only [Json.need, needItems]; decide
  | .arr (v :: l), d => by
    have h1 := need_le v (d + 1)
    have h2 := needItems_le l (d + 1)
    simp only [Json.need, needItems, Json.render, List.length_cons, List.length_append, newline_length, List.cons_append]
    omega
  | .obj [], d => by rw [Json.render]; simp only [Json.need, needFields]; decide
  | .obj ((k, v) :: l), d => by
    have h1 := need_le v (d + 1)
    have h2 := needFields_le l (d + 1)
    simp only [Json.need, needFields, Json.render, List.length_cons, List.length_append, newline_length, List.cons_append]
    omega

theorem needItems_le : (l : List Json) → ∀ d, needItems l ≤ (renderItems d l).length
  | [], d => by simp [needItems]
  | v :: l, d => by
    have h1 := need_le v d
    have h2 := needItems_le l d
    simp only [needItems, renderItems, List.length_cons, List.length_append, newline_length, List.cons_append]
    omega

theorem needFields_le : (l : List (Bytes × Json)) → ∀ d, needFields l ≤ (renderFields d l).length
  | [], d => by simp [needFields]
  | (k, v) :: l, d => by
    have h1 := need_le v d
    have h2 := needFields_le l d
    simp only [needFields, renderFields, List.length_cons, List.length_append, newline_length, List.cons_append]
    omega
end

/-- What `MarshalIndent` writes is read as the value, with U+FFFD for what is no text. -/
theorem readJson_render (v : Json) : readJson (v.render 0) = some v.clean := by
  have := read_value v 0 ((v.render 0).length + 1) [] (by have := need_le v 0; omega) (by intro b hb; cases hb)
  rw [List.append_nil] at this
  unfold readJson
  rw [this]
  rfl

end Verif
