import Verif.Model.Token
import Verif.Spec.Token
import Verif.Proofs.Json
/-!
# Writing and reading tokens
-/

namespace Verif
open Spec

/-! ## Compact JSON -/

/-- A written value starts with a byte that is neither white space nor a closing bracket. -/
theorem compact_head (v : Json) : ∃ b t, v.compact = b :: t ∧ Solid b ∧ b ≠ 93 ∧ b ≠ 125 := by
  match v with
  | .null => exact ⟨110, _, rfl, by unfold Solid; decide, by decide, by decide⟩
  | .num n =>
    obtain ⟨b, t, h, hb⟩ := decInt_head n
    refine ⟨b, t, by rw [Json.compact, h], ?_, ?_, ?_⟩
    · rintro (rfl | rfl | rfl | rfl) <;> revert hb <;> decide
    · rintro rfl; revert hb; decide
    · rintro rfl; revert hb; decide
  | .str s => exact ⟨34, _, rfl, by unfold Solid; decide, by decide, by decide⟩
  | .arr [] => exact ⟨91, _, rfl, by unfold Solid; decide, by decide, by decide⟩
  | .arr (v :: l) => exact ⟨91, _, rfl, by unfold Solid; decide, by decide, by decide⟩
  | .obj [] => exact ⟨123, _, rfl, by unfold Solid; decide, by decide, by decide⟩
  | .obj ((k, v) :: l) => exact ⟨123, _, rfl, by unfold Solid; decide, by decide, by decide⟩

theorem ends_compactItems (l : List Json) (r : Bytes) : Ends (compactItems l ++ 93 :: r) := by
  cases l with
  | nil => exact ends_of (by decide)
  | cons v l => exact ends_of (by decide)

theorem ends_compactFields (l : List (Bytes × Json)) (r : Bytes) : Ends (compactFields l ++ 125 :: r) := by
  cases l with
  | nil => exact ends_of (by decide)
  | cons p l => obtain ⟨k, v⟩ := p; exact ends_of (by decide)

mutual
theorem read_compact : (v : Json) → ∀ (n : Nat) (r : Bytes), v.need ≤ n → Ends r → readValue n (v.compact ++ r) = some (v.clean, r)
  | .null, n, r, hn, hr => by
    cases n with
    | zero => simp [Json.need] at hn
    | succ n => rfl
  | .num x, n, r, hn, hr => by
    have := read_value (.num x) 0 n r hn hr
    rw [Json.render] at this
    rw [Json.compact, this]
  | .str s, n, r, hn, hr => by
    have := read_value (.str s) 0 n r hn hr
    rw [Json.render] at this
    rw [Json.compact, this]
  | .arr [], n, r, hn, hr => by
    cases n with
    | zero => simp [Json.need] at hn
    | succ n => rfl
  | .arr (v :: l), n, r, hn, hr => by
    cases n with
    | zero => simp [Json.need] at hn
    | succ n =>
      have ih := read_compactItems v l n r (by simp only [Json.need, needItems] at hn ⊢; omega)
      obtain ⟨b, t, hb, hs, h93, _⟩ := compact_head v
      rw [hb, List.cons_append] at ih
      rw [Json.compact]
      simp only [List.cons_append, List.append_assoc, List.nil_append]
      rw [readValue_arr n b _ _ (by rw [hb, List.cons_append, skipWs_solid hs]) h93, ih]
      rfl
  | .obj [], n, r, hn, hr => by
    cases n with
    | zero => simp [Json.need] at hn
    | succ n => rfl
  | .obj ((k, v) :: l), n, r, hn, hr => by
    cases n with
    | zero => simp [Json.need] at hn
    | succ n =>
      have ih := read_compactFields k v l n r (by simp only [Json.need, needFields] at hn ⊢; omega)
      rw [quote_append] at ih
      rw [Json.compact]
      simp only [List.cons_append, List.append_assoc, List.nil_append]
      rw [readValue_obj n 34 _ _ (by rw [quote_append, skipWs_solid solid_punct.2.2.2.2]) (by decide), ih]
      rfl
termination_by _ n => n

theorem read_compactItems : (v : Json) → (l : List Json) → ∀ (n : Nat) (r : Bytes), v.need + needItems l + 1 ≤ n →
    readItems n (v.compact ++ (compactItems l ++ 93 :: r)) = some (cleanItems (v :: l), r)
  | v, [], n, r, hn => by
    cases n with
    | zero => omega
    | succ n =>
      have iv := read_compact v n (compactItems [] ++ 93 :: r) (by omega) (ends_compactItems _ _)
      rw [readItems_last n _ _ r _ iv (by rw [compactItems, List.nil_append, skipWs_solid solid_punct.2.1])]
      rfl
  | v, w :: l, n, r, hn => by
    cases n with
    | zero => omega
    | succ n =>
      simp only [needItems] at hn
      have iv := read_compact v n (compactItems (w :: l) ++ 93 :: r) (by omega) (ends_compactItems _ _)
      have il := read_compactItems w l n r (by omega)
      rw [readItems_more n _ _ (w.compact ++ (compactItems l ++ 93 :: r)) _ iv (by
        rw [compactItems]
        simp only [List.cons_append, List.append_assoc]
        rw [skipWs_solid solid_punct.1]), il]
      rfl
termination_by _ _ n => n

theorem read_compactFields : (k : Bytes) → (v : Json) → (l : List (Bytes × Json)) → ∀ (n : Nat) (r : Bytes), v.need + needFields l + 1 ≤ n →
    readFields n (quote k ++ 58 :: (v.compact ++ (compactFields l ++ 125 :: r))) = some (cleanFields ((k, v) :: l), r)
  | k, v, [], n, r, hn => by
    cases n with
    | zero => omega
    | succ n =>
      have iv := read_compact v n (compactFields [] ++ 125 :: r) (by omega) (ends_compactFields _ _)
      rw [quote_append, readFields_last n _ _ _ _ r _ _ (readChars_quote k _) (skipWs_solid solid_punct.2.2.2.1 _)
        iv (by rw [compactFields, List.nil_append, skipWs_solid solid_punct.2.2.1])]
      rfl
  | k, v, (k', w) :: l, n, r, hn => by
    cases n with
    | zero => omega
    | succ n =>
      simp only [needFields] at hn
      have iv := read_compact v n (compactFields ((k', w) :: l) ++ 125 :: r) (by omega) (ends_compactFields _ _)
      have il := read_compactFields k' w l n r (by omega)
      rw [quote_append, readFields_more n _ _ _ _
        (quote k' ++ 58 :: (w.compact ++ (compactFields l ++ 125 :: r))) _ _ (readChars_quote k _)
        (skipWs_solid solid_punct.2.2.2.1 _) iv (by
        rw [compactFields]
        simp only [List.cons_append, List.append_assoc]
        rw [skipWs_solid solid_punct.1]), il]
      rfl
termination_by _ _ _ n => n
end

mutual
theorem need_compact : (v : Json) → v.need ≤ v.compact.length
  | .null => by simp [Json.need, Json.compact, ascii]
  | .num x => by
    obtain ⟨b, t, h, _⟩ := decInt_head x
    simp [Json.need, Json.compact, h]
  | .str s => by simp [Json.need, Json.compact, quote]
  | .arr [] => by rw [Json.compact]; simp only [Json.need, needItems]; decide
  | .arr (v :: l) => by
    have h1 := need_compact v
    have h2 := needItems_compact l
    simp only [Json.need, needItems, Json.compact, List.length_cons, List.length_append, List.cons_append, List.length_nil]
    omega
  | .obj [] => by rw [Json.compact]; simp only [Json.need, needFields]; decide
  | .obj ((k, v) :: l) => by
    have h1 := need_compact v
    have h2 := needFields_compact l
    simp only [Json.need, needFields, Json.compact, List.length_cons, List.length_append, List.cons_append, List.length_nil]
    omega

theorem needItems_compact : (l : List Json) → needItems l ≤ (compactItems l).length
  | [] => by simp [needItems]
  | v :: l => by
    have h1 := need_compact v
    have h2 := needItems_compact l
    simp only [needItems, compactItems, List.length_cons, List.length_append, List.cons_append]
    omega

theorem needFields_compact : (l : List (Bytes × Json)) → needFields l ≤ (compactFields l).length
  | [] => by simp [needFields]
  | (k, v) :: l => by
    have h1 := need_compact v
    have h2 := needFields_compact l
    simp only [needFields, compactFields, List.length_cons, List.length_append, List.cons_append]
    omega
end

/-- What `Marshal` writes is read as the value, with U+FFFD for what is no text. -/
theorem readJson_compact (v : Json) : readJson v.compact = some v.clean := by
  have := read_compact v (v.compact.length + 1) [] (by have := need_compact v; omega) (by intro b hb; cases hb)
  rw [List.append_nil] at this
  unfold readJson
  rw [this]
  rfl

/-! ## Base64 -/

theorem b64Val_digit : ∀ n : Fin 64, b64Val (b64Digit n.val) = some n.val := by decide +kernel

theorem b64_digit {n : Nat} (h : n < 64) : b64Val (b64Digit n) = some n := b64Val_digit ⟨n, h⟩

theorem readB64_encode : (s : Bytes) → readB64 (b64Encode s) = some s
  | a :: b :: c :: r => by
    have ih := readB64_encode r
    have ha := a.toNat_lt
    have hb := b.toNat_lt
    have hc := c.toNat_lt
    simp only [b64Encode, readB64, ih, b64_digit (Nat.mod_lt _ (show 0 < 64 by omega)), Option.bind_eq_bind, Option.bind_some, Option.some.injEq]
    have e : ∀ (x : UInt8) (n : Nat), n = x.toNat → UInt8.ofNat n = x := by intro x n h; rw [h, UInt8.ofNat_toNat]
    rw [e a _ (by omega), e b _ (by omega), e c _ (by omega)]
  | [a, b] => by
    have ha := a.toNat_lt
    have hb := b.toNat_lt
    have e : ∀ (x : UInt8) (n : Nat), n = x.toNat → UInt8.ofNat n = x := by intro x n h; rw [h, UInt8.ofNat_toNat]
    simp only [b64Encode, readB64, b64_digit (Nat.mod_lt _ (show 0 < 64 by omega)), Option.bind_eq_bind, Option.bind_some]
    rw [if_pos (by omega), e a _ (by omega), e b _ (by omega)]
  | [a] => by
    have ha := a.toNat_lt
    have e : ∀ (x : UInt8) (n : Nat), n = x.toNat → UInt8.ofNat n = x := by intro x n h; rw [h, UInt8.ofNat_toNat]
    simp only [b64Encode, readB64, b64_digit (Nat.mod_lt _ (show 0 < 64 by omega)), Option.bind_eq_bind, Option.bind_some]
    rw [if_pos (by omega), e a _ (by omega)]
  | [] => rfl

theorem b64Digit_safe : ∀ n : Fin 64, b64Digit n.val ≠ 46 ∧ b64Digit n.val ≠ 32 ∧ b64Digit n.val < 0x80 := by decide +kernel

/-- The digits are letters, digits, `-` and `_`. -/
theorem b64_safe (s : Bytes) : ∀ x ∈ b64Encode s, x ≠ 46 ∧ x ≠ 32 ∧ x < 0x80 := by
  have key : ∀ n, b64Digit (n % 64) ≠ 46 ∧ b64Digit (n % 64) ≠ 32 ∧ b64Digit (n % 64) < 0x80 := fun n =>
    b64Digit_safe ⟨n % 64, Nat.mod_lt _ (by omega)⟩
  match s with
  | a :: b :: c :: r =>
    intro x hx
    simp only [b64Encode, List.mem_cons] at hx
    rcases hx with rfl | rfl | rfl | rfl | hx
    · exact key _
    · exact key _
    · exact key _
    · exact key _
    · exact b64_safe r x hx
  | [a, b] =>
    intro x hx
    simp only [b64Encode, List.mem_cons, List.not_mem_nil, or_false] at hx
    rcases hx with rfl | rfl | rfl <;> exact key _
  | [a] =>
    intro x hx
    simp only [b64Encode, List.mem_cons, List.not_mem_nil, or_false] at hx
    rcases hx with rfl | rfl <;> exact key _
  | [] => intro x hx; cases hx

theorem b64Val_some : ∀ b : Fin 256, ∀ n, b64Val (UInt8.ofNat b.val) = some n → n < 64 ∧ b64Digit n = UInt8.ofNat b.val := by
  have : ∀ b : Fin 256, (b64Val (UInt8.ofNat b.val)).all (fun n => decide (n < 64 ∧ b64Digit n = UInt8.ofNat b.val)) = true := by decide +kernel
  intro b n h
  have := this b
  rw [h] at this
  exact of_decide_eq_true this

theorem b64Val_inv {b : UInt8} {n : Nat} (h : b64Val b = some n) : n < 64 ∧ b64Digit n = b := by
  have := b64Val_some ⟨b.toNat, b.toNat_lt⟩ n
  simp only [UInt8.ofNat_toNat] at this
  exact this h

/-- No other text is read as these bytes. -/
theorem readB64_canonical : (t s : Bytes) → readB64 t = some s → t = b64Encode s
  | w :: x :: y :: z :: r, s, h => by
    simp only [readB64, Option.bind_eq_bind, Option.bind_eq_some_iff] at h
    obtain ⟨nw, hw, nx, hx, ny, hy, nz, hz, l, hl, e⟩ := h
    obtain ⟨lw, rfl⟩ := b64Val_inv hw
    obtain ⟨lx, rfl⟩ := b64Val_inv hx
    obtain ⟨ly, rfl⟩ := b64Val_inv hy
    obtain ⟨lz, rfl⟩ := b64Val_inv hz
    have ih := readB64_canonical r l hl
    cases e
    have t : ∀ n, n < 256 → (UInt8.ofNat n).toNat = n := fun n h => by simp only [UInt8.toNat_ofNat']; omega
    simp only [b64Encode]
    rw [t _ (by omega), t _ (by omega), t _ (by omega), ← ih]
    have e1 : ∀ n, n = (nw * 64 + nx) * 4096 + ny * 64 + nz → (n / 65536 * 65536 + n / 256 % 256 * 256 + n % 256) / 262144 % 64 = nw := by
      intro n hn; omega
    have e2 : ∀ n, n = (nw * 64 + nx) * 4096 + ny * 64 + nz → (n / 65536 * 65536 + n / 256 % 256 * 256 + n % 256) / 4096 % 64 = nx := by
      intro n hn; omega
    have e3 : ∀ n, n = (nw * 64 + nx) * 4096 + ny * 64 + nz → (n / 65536 * 65536 + n / 256 % 256 * 256 + n % 256) / 64 % 64 = ny := by
      intro n hn; omega
    have e4 : ∀ n, n = (nw * 64 + nx) * 4096 + ny * 64 + nz → (n / 65536 * 65536 + n / 256 % 256 * 256 + n % 256) % 64 = nz := by
      intro n hn; omega
    rw [e1 _ rfl, e2 _ rfl, e3 _ rfl, e4 _ rfl]
  | [w, x, y], s, h => by
    simp only [readB64, Option.bind_eq_bind, Option.bind_eq_some_iff] at h
    obtain ⟨nw, hw, nx, hx, ny, hy, e⟩ := h
    obtain ⟨lw, rfl⟩ := b64Val_inv hw
    obtain ⟨lx, rfl⟩ := b64Val_inv hx
    obtain ⟨ly, rfl⟩ := b64Val_inv hy
    split at e
    · rename_i h4
      cases e
      have t : ∀ n, n < 256 → (UInt8.ofNat n).toNat = n := fun n h => by simp only [UInt8.toNat_ofNat']; omega
      simp only [b64Encode]
      rw [t _ (by omega), t _ (by omega)]
      have e1 : ((((nw * 64 + nx) * 64 + ny) / 1024) * 65536 + ((nw * 64 + nx) * 64 + ny) / 4 % 256 * 256) / 262144 % 64 = nw := by omega
      have e2 : ((((nw * 64 + nx) * 64 + ny) / 1024) * 65536 + ((nw * 64 + nx) * 64 + ny) / 4 % 256 * 256) / 4096 % 64 = nx := by omega
      have e3 : ((((nw * 64 + nx) * 64 + ny) / 1024) * 65536 + ((nw * 64 + nx) * 64 + ny) / 4 % 256 * 256) / 64 % 64 = ny := by omega
      rw [e1, e2, e3]
    · cases e
  | [w, x], s, h => by
    simp only [readB64, Option.bind_eq_bind, Option.bind_eq_some_iff] at h
    obtain ⟨nw, hw, nx, hx, e⟩ := h
    obtain ⟨lw, rfl⟩ := b64Val_inv hw
    obtain ⟨lx, rfl⟩ := b64Val_inv hx
    split at e
    · rename_i h4
      cases e
      have t : ∀ n, n < 256 → (UInt8.ofNat n).toNat = n := fun n h => by simp only [UInt8.toNat_ofNat']; omega
      simp only [b64Encode]
      rw [t _ (by omega)]
      have e1 : ((nw * 64 + nx) / 16 * 65536) / 262144 % 64 = nw := by omega
      have e2 : ((nw * 64 + nx) / 16 * 65536) / 4096 % 64 = nx := by omega
      rw [e1, e2]
    · cases e
  | [_], s, h => by cases h
  | [], s, h => by cases h; rfl

/-! ## Numbers of a signature -/

theorem bigEndian_length : (k n : Nat) → (bigEndian k n).length = k
  | 0, _ => rfl
  | k + 1, n => by rw [bigEndian, List.length_append, bigEndian_length k]; rfl

theorem bigNat_bigEndian : (k n : Nat) → n < 256 ^ k → bigNat (bigEndian k n) = n
  | 0, n, h => by simp at h; subst h; rfl
  | k + 1, n, h => by
    have ih := bigNat_bigEndian k (n / 256) (Nat.div_lt_of_lt_mul (by rw [Nat.pow_succ] at h; omega))
    unfold bigNat at ih ⊢
    rw [bigEndian, List.foldl_append, ih]
    simp only [List.foldl_cons, List.foldl_nil, UInt8.toNat_ofNat']
    omega

end Verif
