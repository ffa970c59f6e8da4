import Verif.Model.Sharing
import Verif.Props.OnlineFile
import Verif.Proofs.Decode
import Verif.Props.FileIndex
/-!
# C141: a decoded record belongs to its caller
-/

namespace Verif

/-- The same blocks, with other contents. -/
def Spec.SameSizes (H H' : Blocks) : Prop := H'.map List.length = H.map List.length

/-- The full claim of C141: what is stored in the buffer later does not change the record. -/
def Spec.C141 : Prop := ∀ (c : Codec) (H : Blocks) (k s n : Nat) (o : Online), UserInfo.decodeIn c H k s n = .ok o →
  ∀ H', Spec.SameSizes H H' → o.seen H' = o.seen H

/-- The full claim for the fields of one record: adding to a message changes no other field. -/
def Spec.C141_fields : Prop := ∀ (c : Codec) (H : Blocks) (k s n : Nat) (o : Online), UserInfo.decodeIn c H k s n = .ok o →
  ∀ (spare : Nat) (i : Fin 10) (x : Bytes), o.seen ((o.msgs[i]).append spare H x).1 = o.seen H

open Spec

theorem slice_drop (d : Bytes) (s a b : Nat) : slice (d.drop s) a b = slice d (s + a) (s + b) := by
  apply List.ext_getElem?
  intro i
  rw [slice_getElem?, slice_getElem?, List.getElem?_drop, Nat.add_assoc]
  by_cases h : a + i < b
  · rw [if_pos h, if_pos (by omega)]
  · rw [if_neg h, if_neg (by omega)]

theorem decodeIn_ok {c : Codec} {H : Blocks} {k s n : Nat} {o : Online} (h : UserInfo.decodeIn c H k s n = .ok o) :
    3448 < n ∧ 3475 ≤ (H.block k).length - s ∧ o = ⟨UserInfo.parse c ((H.block k).drop s), Vector.ofFn fun i : Fin 10 => ⟨k, s + (2292 + 100 * i), 100⟩⟩ := by
  unfold UserInfo.decodeIn at h
  rw [UserInfo.decode_eq] at h
  split at h
  · next hc =>
    refine ⟨hc.1, by simpa using hc.2, ?_⟩
    exact (Res.ok.inj h).symm
  · cases h

/-- **C141, exactly**: every field is what it was when the record was decoded, but the messages are those that are in the buffer now. -/
theorem C141_exact (c : Codec) (H : Blocks) (k s n : Nat) (o : Online) (h : UserInfo.decodeIn c H k s n = .ok o) :
    UserInfo.decode c ⟨(H.block k).drop s, n⟩ = .ok (o.seen H) ∧
    ∀ H', o.seen H' = { o.seen H with msgs := Vector.ofFn fun i : Fin 10 => slice (H'.block k) (s + 2292 + 100 * i) (s + 2292 + 100 * i + 100) } := by
  obtain ⟨h1, h2, rfl⟩ := decodeIn_ok h
  have hm : ∀ H' : Blocks, (Vector.ofFn fun i : Fin 10 => (⟨k, s + (2292 + 100 * i), 100⟩ : BlockSlice)).map (BlockSlice.read H') =
      Vector.ofFn fun i : Fin 10 => slice (H'.block k) (s + 2292 + 100 * i) (s + 2292 + 100 * i + 100) := by
    intro H'
    apply Vector.ext
    intro i hi
    simp only [Vector.getElem_map, Vector.getElem_ofFn, BlockSlice.read, Nat.add_assoc]
  have hs : ∀ H', Online.seen H' ⟨UserInfo.parse c ((H.block k).drop s), Vector.ofFn fun i : Fin 10 => ⟨k, s + (2292 + 100 * i), 100⟩⟩ =
      { UserInfo.parse c ((H.block k).drop s) with
        msgs := Vector.ofFn fun i : Fin 10 => slice (H'.block k) (s + 2292 + 100 * i) (s + 2292 + 100 * i + 100) } := by
    intro H'
    unfold Online.seen
    rw [hm]
  refine ⟨?_, fun H' => by rw [hs, hs]⟩
  rw [UserInfo.decode_eq, if_pos ⟨h1, by simpa using h2⟩, hs]
  congr 1
  unfold UserInfo.parse
  congr 1
  congr 1
  funext i
  rw [slice_drop]
  simp only [Nat.add_assoc]

theorem seen_congr {o : Online} {H H' : Blocks} (h : ∀ i : Fin 10, (o.msgs[i]).read H' = (o.msgs[i]).read H) : o.seen H' = o.seen H := by
  unfold Online.seen
  have : o.msgs.map (BlockSlice.read H') = o.msgs.map (BlockSlice.read H) := by
    apply Vector.ext
    intro i hi
    rw [Vector.getElem_map, Vector.getElem_map]
    exact h ⟨i, hi⟩
  rw [this]

/-- Where the message `i` is. -/
theorem msg_at {c : Codec} {H : Blocks} {k s n : Nat} {o : Online} (h : UserInfo.decodeIn c H k s n = .ok o) (i : Fin 10) :
    o.msgs[i] = ⟨k, s + (2292 + 100 * i), 100⟩ := by
  obtain ⟨_, _, rfl⟩ := decodeIn_ok h
  simp only [Fin.getElem_fin, Vector.getElem_ofFn]

theorem seen_msg (o : Online) (H : Blocks) (i : Fin 10) : (o.seen H).msgs[i] = (o.msgs[i]).read H := by
  unfold Online.seen
  simp only [Fin.getElem_fin, Vector.getElem_map]

/-- **C141, the part that holds**: as long as nothing is stored where the messages are in the buffer, the record stays as it was. (Missing for the
full claim: the messages.) -/
theorem C141_partial (c : Codec) (H : Blocks) (k s n : Nat) (o : Online) (h : UserInfo.decodeIn c H k s n = .ok o) (H' : Blocks)
    (hH : ∀ j, s + 2292 ≤ j → j < s + 3292 → (H'.block k)[j]? = (H.block k)[j]?) : o.seen H' = o.seen H := by
  refine seen_congr fun i => ?_
  rw [msg_at h]
  apply List.ext_getElem?
  intro j
  unfold BlockSlice.read
  rw [slice_getElem?, slice_getElem?]
  split
  · exact hH _ (by simp only; omega) (by simp only at *; have := i.isLt; omega)
  · rfl

theorem block_set {H : Blocks} {k : Nat} {d : Bytes} (hk : (H.block k).length ≠ 0) (j : Nat) :
    Blocks.block (H.set k d) j = if j = k then d else H.block j := by
  have hlt : k < H.length := by
    apply Decidable.byContradiction
    intro hn
    exact hk (by simp [Blocks.block, List.getElem?_eq_none (Nat.le_of_not_lt hn)])
  unfold Blocks.block
  rw [List.getD_eq_getElem?_getD, List.getD_eq_getElem?_getD, List.getElem?_set]
  by_cases h : k = j
  · subst h; rw [if_pos rfl, if_pos hlt, if_pos rfl]; rfl
  · rw [if_neg h, if_neg (Ne.symm h)]

/-- Another place: another block, or other bytes of the same one. -/
def Spec.Apart (k a b k' a' b' : Nat) : Prop := k ≠ k' ∨ b ≤ a' ∨ b' ≤ a

theorem read_apart {H : Blocks} {v : BlockSlice} {k a : Nat} {x : Bytes} (hk : (H.block k).length ≠ 0) (hx : a + x.length ≤ (H.block k).length)
    (h : Apart v.block v.off (v.off + v.len) k a (a + x.length)) : v.read (H.set k (writeAt (H.block k) a x)) = v.read H := by
  unfold BlockSlice.read
  rw [block_set hk]
  by_cases e : v.block = k
  · rw [if_pos e, e]
    apply List.ext_getElem?
    intro j
    rw [slice_getElem?, slice_getElem?]
    split
    · rw [writeAt_getElem?, if_neg (by rcases h with h | h | h <;> first | exact absurd e h | omega)]
      split
      · rfl
      · rw [if_neg (by omega), List.getElem?_eq_none (by omega)]
    · rfl
  · rw [if_neg e]

/-- **C141.** Storing a byte through a message of the record stores it in the buffer; no other field of the record changes. -/
theorem C141_store (c : Codec) (H : Blocks) (k s n : Nat) (o : Online) (h : UserInfo.decodeIn c H k s n = .ok o) (i : Fin 10) (j : Nat) (hj : j < 100)
    (b : UInt8) : ∃ H', (o.msgs[i]).store H j b = .ok H' ∧ H'.block k = writeAt (H.block k) (s + 2292 + 100 * i + j) [b] ∧
      (∀ k', k' ≠ k → H'.block k' = H.block k') ∧
      o.seen H' = { o.seen H with msgs := (o.seen H).msgs.set i ((o.seen H).msgs[i].set j b) } := by
  have hlen := (decodeIn_ok h).2.1
  have hi := i.isLt
  have hk : (H.block k).length ≠ 0 := by omega
  refine ⟨H.set k (writeAt (H.block k) (s + 2292 + 100 * i + j) [b]), ?_, by rw [block_set hk, if_pos rfl], fun k' hk' => by rw [block_set hk, if_neg hk'], ?_⟩
  · rw [msg_at h]
    unfold BlockSlice.store
    rw [if_pos hj]
    simp only [Nat.add_assoc]
  · unfold Online.seen
    have : o.msgs.map (BlockSlice.read (H.set k (writeAt (H.block k) (s + 2292 + 100 * i + j) [b]))) =
        (o.msgs.map (BlockSlice.read H)).set i ((o.msgs.map (BlockSlice.read H))[i].set j b) := by
      apply Vector.ext
      intro l hl
      rw [Vector.getElem_map, Vector.getElem_set]
      by_cases e : i.val = l
      · rw [if_pos e]
        subst e
        have hm : o.msgs[i.val] = ⟨k, s + (2292 + 100 * i), 100⟩ := msg_at h i
        simp only [Fin.getElem_fin, Vector.getElem_map, hm, BlockSlice.read, block_set hk, if_true]
        apply List.ext_getElem?
        intro q
        rw [slice_getElem?, List.getElem?_set, slice_getElem?, slice_length, writeAt_getElem?, List.length_singleton]
        by_cases hq : q < 100
        · rw [if_pos (show s + (2292 + 100 * i.val) + q < s + (2292 + 100 * i.val) + 100 by omega)]
          by_cases e : j = q
          · subst e
            rw [if_pos (show s + 2292 + 100 * i.val + j ≤ s + (2292 + 100 * i.val) + j ∧ s + (2292 + 100 * i.val) + j < s + 2292 + 100 * i.val + j + 1 by omega),
              if_pos rfl, if_pos (by omega), show s + (2292 + 100 * i.val) + j - (s + 2292 + 100 * i.val + j) = 0 by omega]
            rfl
          · rw [if_neg (by omega), if_neg e, if_pos (by omega)]
            rw [if_pos (by omega)]
        · rw [if_neg (show ¬ s + (2292 + 100 * i.val) + q < s + (2292 + 100 * i.val) + 100 by omega), if_neg (show ¬ j = q by omega)]
          rw [if_neg (by omega)]
      · rw [if_neg e, Vector.getElem_map]
        have hm : o.msgs[l] = ⟨k, s + (2292 + 100 * l), 100⟩ := msg_at h ⟨l, hl⟩
        refine read_apart hk (by simp only [List.length_singleton]; omega) ?_
        rw [hm]
        simp only [List.length_singleton]
        refine Or.inr ?_
        rcases Nat.lt_or_gt_of_ne e with e | e <;> omega
    rw [this]

/-- **C141.** There is no byte to store beyond a message, although the buffer goes on: an index from 100 on crashes. -/
theorem C141_store_outside (c : Codec) (H : Blocks) (k s n : Nat) (o : Online) (h : UserInfo.decodeIn c H k s n = .ok o) (i : Fin 10) (j : Nat) (hj : 100 ≤ j)
    (b : UInt8) : (o.msgs[i]).store H j b = .panic := by
  rw [msg_at h]
  unfold BlockSlice.store
  rw [if_neg (by simp only; omega)]

/-- **C141.** Adding at most 100 bytes to a message, but the last one, overwrites the beginning of the next message, for every record decoded from that
buffer; the message itself, as the record has it, stays as it was. -/
theorem C141_append (spare : Nat) (c : Codec) (H : Blocks) (k s n : Nat) (o : Online) (h : UserInfo.decodeIn c H k s n = .ok o) (i : Fin 10) (hi : i.val + 1 < 10) (x : Bytes)
    (hx : x.length ≤ 100) :
    ((o.msgs[i]).append spare H x).2.read ((o.msgs[i]).append spare H x).1 = (o.seen H).msgs[i] ++ x ∧
    o.seen ((o.msgs[i]).append spare H x).1 = { o.seen H with msgs := (o.seen H).msgs.set (i.val + 1) (x ++ ((o.seen H).msgs[i.val + 1]).drop x.length) } := by
  have hlen := (decodeIn_ok h).2.1
  have hk : (H.block k).length ≠ 0 := by omega
  have hm : o.msgs[i] = ⟨k, s + (2292 + 100 * i), 100⟩ := msg_at h i
  rw [seen_msg]
  rw [hm]
  unfold BlockSlice.append
  rw [if_pos (by simp only; omega)]
  simp only
  refine ⟨?_, ?_⟩
  · simp only [BlockSlice.read, block_set hk, if_true]
    apply List.ext_getElem?
    intro q
    rw [slice_getElem?, List.getElem?_append, slice_getElem?, slice_length, writeAt_getElem?]
    by_cases h1 : q < 100
    · rw [if_pos (by omega), if_neg (by omega), if_pos (by omega), if_pos (by omega), if_pos (by omega)]
    · rw [if_neg (show ¬ q < min (s + (2292 + 100 * i.val) + 100) (H.block k).length - (s + (2292 + 100 * i.val)) by omega)]
      by_cases h2 : q < 100 + x.length
      · rw [if_pos (by omega), if_pos (by omega)]
        congr 1
        omega
      · rw [if_neg (by omega), List.getElem?_eq_none (by omega)]
  · unfold Online.seen
    have : o.msgs.map (BlockSlice.read (H.set k (writeAt (H.block k) (s + (2292 + 100 * i.val) + 100) x))) =
        (o.msgs.map (BlockSlice.read H)).set (i.val + 1) (x ++ ((o.msgs.map (BlockSlice.read H))[i.val + 1]).drop x.length) := by
      apply Vector.ext
      intro l hl
      rw [Vector.getElem_map, Vector.getElem_set]
      have hml : o.msgs[l] = ⟨k, s + (2292 + 100 * l), 100⟩ := msg_at h ⟨l, hl⟩
      by_cases e : i.val + 1 = l
      · rw [if_pos e]
        subst e
        simp only [Vector.getElem_map, hml, BlockSlice.read, block_set hk, if_true]
        apply List.ext_getElem?
        intro q
        rw [slice_getElem?, List.getElem?_append, List.getElem?_drop, slice_getElem?, writeAt_getElem?]
        by_cases hq : q < x.length
        · rw [if_pos (by omega), if_pos (by omega), if_pos hq]
          congr 1
          omega
        · rw [if_neg hq]
          by_cases h1 : q < 100
          · rw [if_pos (by omega), if_neg (by omega), if_pos (by omega), if_pos (by omega)]
            congr 1
            omega
          · rw [if_neg (by omega), if_neg (by omega)]
      · rw [if_neg e, Vector.getElem_map]
        refine read_apart hk (by omega) ?_
        rw [hml]
        refine Or.inr ?_
        simp only
        rcases Nat.lt_or_gt_of_ne e with e | e <;> omega
    rw [this]

/-- **C141.** Records decoded from different parts of memory do not disturb one another by storing into their messages. -/
theorem C141_others (c : Codec) (H : Blocks) (k s n k' s' n' : Nat) (o p : Online) (ho : UserInfo.decodeIn c H k s n = .ok o)
    (hp : UserInfo.decodeIn c H k' s' n' = .ok p) (hapart : Apart k s (s + 3484) k' s' (s' + 3484)) (i : Fin 10) (j : Nat) (b : UInt8) (H' : Blocks)
    (h : (o.msgs[i]).store H j b = .ok H') : p.seen H' = p.seen H := by
  have hlen := (decodeIn_ok ho).2.1
  have hi := i.isLt
  rw [msg_at ho] at h
  unfold BlockSlice.store at h
  split at h
  · next hj =>
    simp only at hj
    have h := Res.ok.inj h
    subst h
    refine seen_congr fun l => ?_
    have hl := l.isLt
    refine read_apart (by show (H.block k).length ≠ 0; omega) (by simp only [List.length_singleton]; omega) ?_
    rw [msg_at hp]
    simp only [List.length_singleton]
    rcases hapart with e | e | e
    · exact Or.inl (Ne.symm e)
    · exact Or.inr (Or.inr (by omega))
    · exact Or.inr (Or.inl (by omega))
  · cases h

theorem block_append_left {H X : Blocks} {k : Nat} (h : k < H.length) : Blocks.block (H ++ X) k = H.block k := by
  unfold Blocks.block
  rw [List.getD_eq_getElem?_getD, List.getD_eq_getElem?_getD, List.getElem?_append_left h]

/-- **C141.** Adding more to a message than there is room for behind it in the buffer changes neither the record nor any block there was; the longer
message is in a block of its own. -/
theorem C141_append_new (spare : Nat) (c : Codec) (H : Blocks) (k s n : Nat) (o : Online) (h : UserInfo.decodeIn c H k s n = .ok o) (i : Fin 10) (x : Bytes)
    (hx : (H.block k).length < s + 2392 + 100 * i + x.length) :
    ((o.msgs[i]).append spare H x).2.read ((o.msgs[i]).append spare H x).1 = (o.seen H).msgs[i] ++ x ∧ o.seen ((o.msgs[i]).append spare H x).1 = o.seen H ∧
    ((o.msgs[i]).append spare H x).2.block = H.length ∧ ∀ k' < H.length, Blocks.block ((o.msgs[i]).append spare H x).1 k' = H.block k' := by
  have hlen := (decodeIn_ok h).2.1
  have hi := i.isLt
  have hk : k < H.length := by
    rcases Nat.lt_or_ge k H.length with hk | hk
    · exact hk
    · have : H.block k = [] := by
        unfold Blocks.block
        rw [List.getD_eq_getElem?_getD, List.getElem?_eq_none hk]
        rfl
      rw [this] at hlen
      simp only [List.length_nil] at hlen
      omega
  have hm : o.msgs[i] = ⟨k, s + (2292 + 100 * i), 100⟩ := msg_at h i
  rw [seen_msg, hm]
  unfold BlockSlice.append
  rw [if_neg (by simp only; omega)]
  simp only
  refine ⟨?_, ?_, trivial, fun k' hk' => block_append_left hk'⟩
  · have hb : Blocks.block (H ++ [BlockSlice.read H ⟨k, s + (2292 + 100 * i), 100⟩ ++ x ++ List.replicate spare 0]) H.length =
        BlockSlice.read H ⟨k, s + (2292 + 100 * i), 100⟩ ++ x ++ List.replicate spare 0 := by
      unfold Blocks.block
      rw [List.getD_eq_getElem?_getD, List.getElem?_append_right (Nat.le_refl _), Nat.sub_self]
      rfl
    have hr : (BlockSlice.read H ⟨k, s + (2292 + 100 * i), 100⟩).length = 100 := by
      unfold BlockSlice.read
      rw [slice_length]
      simp only
      omega
    rw [BlockSlice.read]
    simp only [hb]
    apply List.ext_getElem?
    intro q
    rw [slice_getElem?, Nat.zero_add, Nat.zero_add]
    split
    · rw [List.getElem?_append_left (by rw [List.length_append, hr]; omega)]
    · rw [List.getElem?_eq_none (by rw [List.length_append, hr]; omega)]
  · unfold Online.seen
    have : ∀ b : Bytes, o.msgs.map (BlockSlice.read (H ++ [b])) = o.msgs.map (BlockSlice.read H) := by
      intro b
      apply Vector.ext
      intro l hl
      rw [Vector.getElem_map, Vector.getElem_map]
      have hml : o.msgs[l] = ⟨k, s + (2292 + 100 * l), 100⟩ := msg_at h ⟨l, hl⟩
      rw [hml]
      unfold BlockSlice.read
      rw [block_append_left hk]
    rw [this]

/-- A slice that lies in an allocated block is not changed by adding to a slice of another block. -/
theorem read_append_other {spare : Nat} {H : Blocks} {v u : BlockSlice} {x : Bytes} (hb : v.block ≠ u.block) (hv : v.block < H.length) (hu : (H.block u.block).length ≠ 0) :
    v.read (u.append spare H x).1 = v.read H := by
  unfold BlockSlice.append
  split
  · next hc => exact read_apart hu hc (Or.inl hb)
  · unfold BlockSlice.read
    rw [block_append_left hv]

theorem read_store_other {H H' : Blocks} {v u : BlockSlice} {j : Nat} {b : UInt8} (hb : v.block ≠ u.block) (hu : u.off + u.len ≤ (H.block u.block).length)
    (h : u.store H j b = .ok H') : v.read H' = v.read H := by
  unfold BlockSlice.store at h
  split at h
  · next hj =>
    have h := Res.ok.inj h
    subst h
    exact read_apart (by omega) (by simp only [List.length_singleton]; omega) (Or.inl hb)
  · cases h

/-- What the read loop leaves behind: one fresh block for every record. -/
structure Spec.NewBlocks (H H' : Blocks) (os : List Online) : Prop where
  blocks : ∃ new : Blocks, H' = H ++ new ∧ new.length = os.length ∧ ∀ b ∈ new, b.length = 3484
  slices : ∀ (j : Nat) (h : j < os.length) (l : Fin 10), (os[j]).msgs[l] = ⟨H.length + j, 2292 + 100 * l, 100⟩

theorem loopIn_ok (c : Codec) (src : Nat → ReadRes) (fuel : Nat) : ∀ (k : Nat) (H H' : Blocks) (os : List Online),
    onlineLoopIn c src fuel k H = .ok (H', os) → onlineLoop c src fuel k = .ok (os.map (Online.seen H')) ∧ NewBlocks H H' os := by
  induction fuel with
  | zero => intro k H H' os h; cases h
  | succ fuel ih =>
    intro k H H' os h
    unfold onlineLoopIn at h
    unfold onlineLoop
    cases hs : src k with
    | eof =>
      rw [hs] at h
      have h := Res.ok.inj h
      injection h with h1 h2
      subst h1 h2
      exact ⟨rfl, ⟨[], (List.append_nil _).symm, rfl, nofun⟩, nofun⟩
    | fail => rw [hs] at h; cases h
    | data bs =>
      rw [hs] at h
      simp only at h ⊢
      obtain ⟨o, ho, h⟩ := Res.bind_eq_ok.mp h
      obtain ⟨⟨H2, rest⟩, hr, h⟩ := Res.bind_eq_ok.mp h
      have h := Res.ok.inj h
      injection h with h1 h2
      subst h1 h2
      obtain ⟨e1, ⟨new, e2, e3, e4⟩, e5⟩ := ih _ _ _ _ hr
      have hb : Blocks.block (H ++ [padTo 3484 bs]) ((H ++ [padTo 3484 bs]).length - 1) = padTo 3484 bs := by
        unfold Blocks.block
        rw [List.length_append, List.length_singleton, Nat.add_sub_cancel, List.getD_eq_getElem?_getD, List.getElem?_append_right (Nat.le_refl _), Nat.sub_self]
        rfl
      have hown := (C141_exact c _ _ _ _ _ ho).1
      rw [hb] at hown
      have hseen : o.seen H2 = o.seen (H ++ [padTo 3484 bs]) := by
        refine C141_partial c _ _ _ _ _ ho H2 fun j _ _ => ?_
        rw [e2, block_append_left (by simp)]
      have hdec : UserInfo.unmarshal c (padTo 3484 bs) = .ok (o.seen H2) := by
        rw [hseen, ← hown, List.drop_zero]
        unfold UserInfo.unmarshal GSlice.full
        rw [padTo_length]
      refine ⟨by rw [hdec, e1]; rfl, ⟨[padTo 3484 bs] ++ new, by rw [e2, List.append_assoc], by simp [e3], ?_⟩, ?_⟩
      · intro b hb
        rcases List.mem_append.mp hb with hb | hb
        · rw [List.mem_singleton.mp hb, padTo_length]
        · exact e4 b hb
      · intro j hj l
        cases j with
        | zero =>
          rw [List.getElem_cons_zero, msg_at ho, List.length_append, List.length_singleton, Nat.add_sub_cancel, Nat.zero_add]
          rfl
        | succ j =>
          rw [List.getElem_cons_succ, e5 j (by simpa using hj) l, List.length_append, List.length_singleton, Nat.add_assoc, Nat.add_comm 1 j]

theorem loopIn_all (c : Codec) (src : Nat → ReadRes) (fuel : Nat) : ∀ (k : Nat) (H : Blocks) (us : List UserInfo),
    onlineLoop c src fuel k = .ok us → ∃ H' os, onlineLoopIn c src fuel k H = .ok (H', os) := by
  induction fuel with
  | zero => intro k H us h; cases h
  | succ fuel ih =>
    intro k H us h
    unfold onlineLoop at h
    unfold onlineLoopIn
    cases hs : src k with
    | eof => exact ⟨_, _, rfl⟩
    | fail => rw [hs] at h; cases h
    | data bs =>
      rw [hs] at h
      simp only at h ⊢
      obtain ⟨u, hu, h⟩ := Res.bind_eq_ok.mp h
      obtain ⟨rest, hr, h⟩ := Res.bind_eq_ok.mp h
      obtain ⟨H2, os, e⟩ := ih (k + 1) (H ++ [padTo 3484 bs]) rest hr
      have hb : Blocks.block (H ++ [padTo 3484 bs]) ((H ++ [padTo 3484 bs]).length - 1) = padTo 3484 bs := by
        unfold Blocks.block
        rw [List.length_append, List.length_singleton, Nat.add_sub_cancel, List.getD_eq_getElem?_getD, List.getElem?_append_right (Nat.le_refl _), Nat.sub_self]
        rfl
      have hu' : UserInfo.decode c ⟨(Blocks.block (H ++ [padTo 3484 bs]) ((H ++ [padTo 3484 bs]).length - 1)).drop 0, 3484⟩ = .ok u := by
        rw [hb, List.drop_zero]
        unfold UserInfo.unmarshal GSlice.full at hu
        rwa [padTo_length] at hu
      unfold UserInfo.decodeIn
      rw [hu', Res.ok_bind]
      simp only [Res.ok_bind, e]
      exact ⟨_, _, rfl⟩

/-- **C141.** The records of a file are what `OpenUserInfoCache` is known to return, memory that was there before is not touched, and whatever is done
with the messages of one of them, no other record of the file changes. -/
theorem C141_file (c : Codec) (H H' : Blocks) (file : Option Bytes) (os : List Online) (h : openUserInfoCacheIn c H file = .ok (H', os)) :
    openUserInfoCache c file = .ok (os.map (Online.seen H')) ∧ (∀ k, k < H.length → H'.block k = H.block k) ∧
    ∀ (a b : Nat) (ha : a < os.length) (hb : b < os.length), a ≠ b → ∀ i : Fin 10,
      (∀ spare x, (os[b]).seen ((os[a].msgs[i]).append spare H' x).1 = (os[b]).seen H') ∧
      (∀ j y H'', (os[a].msgs[i]).store H' j y = .ok H'' → (os[b]).seen H'' = (os[b]).seen H') := by
  cases file with
  | none => cases h
  | some d =>
    obtain ⟨e1, ⟨new, e2, e3, e4⟩, e5⟩ := loopIn_ok _ _ _ _ _ _ _ h
    refine ⟨e1, fun k hk => by rw [e2, block_append_left hk], ?_⟩
    intro a b ha hb hab i
    have hi := i.isLt
    have hlen : ∀ j, j < os.length → (H'.block (H.length + j)).length = 3484 := by
      intro j hj
      unfold Blocks.block
      rw [e2, List.getD_eq_getElem?_getD, List.getElem?_append_right (by omega), Nat.add_sub_cancel_left, List.getElem?_eq_getElem (by omega)]
      exact e4 _ (List.getElem_mem _)
    have hl : H'.length = H.length + os.length := by rw [e2, List.length_append, e3]
    refine ⟨fun spare x => seen_congr fun l => ?_, fun j y H'' hs => seen_congr fun l => ?_⟩
    · refine read_append_other ?_ ?_ ?_ <;> simp only [e5 a ha, e5 b hb]
      · omega
      · omega
      · rw [hlen a ha]; omega
    · refine read_store_other ?_ ?_ hs <;> simp only [e5 a ha, e5 b hb]
      · omega
      · rw [hlen a ha]; omega

/-- **C141.** The file is read whenever `OpenUserInfoCache` reads it. -/
theorem C141_file_all (c : Codec) (H : Blocks) (file : Option Bytes) (us : List UserInfo) (h : openUserInfoCache c file = .ok us) :
    ∃ H' os, openUserInfoCacheIn c H file = .ok (H', os) ∧ os.map (Online.seen H') = us := by
  cases file with
  | none => cases h
  | some d =>
    obtain ⟨H', os, e⟩ := loopIn_all _ _ _ _ H us h
    refine ⟨H', os, e, ?_⟩
    have := (loopIn_ok _ _ _ _ _ _ _ e).1
    exact Res.ok.inj (this.symm.trans h)

theorem loopIn_outcome (c : Codec) (src : Nat → ReadRes) (fuel : Nat) : ∀ (k : Nat) (H : Blocks),
    (onlineLoopIn c src fuel k H >>= fun _ => Res.ok ()) = (onlineLoop c src fuel k >>= fun _ => Res.ok ()) := by
  induction fuel with
  | zero => intro k H; rfl
  | succ fuel ih =>
    intro k H
    unfold onlineLoop onlineLoopIn
    cases hs : src k with
    | eof => rfl
    | fail => rfl
    | data bs =>
      simp only
      have hb : Blocks.block (H ++ [padTo 3484 bs]) ((H ++ [padTo 3484 bs]).length - 1) = padTo 3484 bs := by
        unfold Blocks.block
        rw [List.length_append, List.length_singleton, Nat.add_sub_cancel, List.getD_eq_getElem?_getD, List.getElem?_append_right (Nat.le_refl _), Nat.sub_self]
        rfl
      have hu : UserInfo.decode c ⟨(Blocks.block (H ++ [padTo 3484 bs]) ((H ++ [padTo 3484 bs]).length - 1)).drop 0, 3484⟩ =
          UserInfo.unmarshal c (padTo 3484 bs) := by
        rw [hb, List.drop_zero]
        unfold UserInfo.unmarshal GSlice.full
        rw [padTo_length]
      unfold UserInfo.decodeIn
      rw [hu]
      have := ih (k + 1) (H ++ [padTo 3484 bs])
      cases UserInfo.unmarshal c (padTo 3484 bs) with
      | ok u =>
        simp only [Res.ok_bind]
        revert this
        cases onlineLoopIn c src fuel (k + 1) (H ++ [padTo 3484 bs]) <;> cases onlineLoop c src fuel (k + 1) <;> intro this <;> cases this <;> rfl
      | err e => rfl
      | panic => rfl
      | diverge => rfl

/-- **C141, any source.** Reading records into blocks of memory ends as reading them by value does, with the same error too, and the records are the same. -/
theorem C141_same (c : Codec) (src : Nat → ReadRes) (fuel k : Nat) (H : Blocks) :
    (onlineLoopIn c src fuel k H >>= fun x => Res.ok (x.2.map (Online.seen x.1))) = onlineLoop c src fuel k := by
  have h := loopIn_outcome c src fuel k H
  cases e : onlineLoopIn c src fuel k H with
  | ok x => exact (loopIn_ok _ _ _ _ _ _ _ e).1.symm
  | err m => rw [e] at h; cases e' : onlineLoop c src fuel k <;> rw [e'] at h <;> cases h; rfl
  | panic => rw [e] at h; cases e' : onlineLoop c src fuel k <;> rw [e'] at h <;> cases h; rfl
  | diverge => rw [e] at h; cases e' : onlineLoop c src fuel k <;> rw [e'] at h <;> cases h; rfl

/-- **C141, any file.** -/
theorem C141_file_same (c : Codec) (H : Blocks) (file : Option Bytes) :
    (openUserInfoCacheIn c H file >>= fun x => Res.ok (x.2.map (Online.seen x.1))) = openUserInfoCache c file := by
  cases file with
  | none => rfl
  | some d => exact C141_same c _ _ 0 H

/-- Both sides of `C141_file_same` fail in the same way. -/
example : openUserInfoCacheIn asciiCodec [] none = .err "no such file or directory" ∧
    onlineLoopIn asciiCodec (fun _ => .fail) 1 0 [] = .err "read error" := ⟨rfl, rfl⟩

/-! ## What is false -/

theorem block_one (b : Bytes) : Blocks.block [b] 0 = b := rfl

/-- A record can be decoded from any 3484 bytes. -/
theorem decodeIn_one (c : Codec) (b : Bytes) (hb : b.length = 3484) : ∃ o, UserInfo.decodeIn c [b] 0 0 3484 = .ok o := by
  unfold UserInfo.decodeIn
  rw [block_one, List.drop_zero, UserInfo.decode_eq, if_pos ⟨by show 3448 < 3484; omega, by simp only [hb]; omega⟩, Res.ok_bind]
  exact ⟨_, rfl⟩

theorem first_of (H : Blocks) (o : Online) {c : Codec} {H0 : Blocks} (h : UserInfo.decodeIn c H0 0 0 3484 = .ok o) (i : Fin 10) :
    (o.seen H).msgs[i][0]? = (H.block 0)[2292 + 100 * i.val]? := by
  rw [seen_msg, msg_at h]
  unfold BlockSlice.read
  rw [slice_getElem?, if_pos (by simp only; omega)]
  simp only [Nat.zero_add, Nat.add_zero]

/-- **C141 is false of the code**: the messages change with the buffer. -/
theorem C141_refuted : ¬ Spec.C141 := by
  intro h
  obtain ⟨o, ho⟩ := decodeIn_one asciiCodec (List.replicate 3484 0) List.length_replicate
  have e := h asciiCodec _ 0 0 3484 o ho [List.replicate 3484 1] (by show [_] = [_]; rw [List.length_replicate, List.length_replicate])
  have e := congrArg (fun u : UserInfo => u.msgs[(0 : Fin 10)][0]?) e
  simp only [first_of _ _ ho, block_one] at e
  rw [List.getElem?_replicate, List.getElem?_replicate] at e
  exact absurd e (by decide)

/-- **C141 is false of the code** within one record, too: adding to a message changes the next one. -/
theorem C141_fields_refuted : ¬ Spec.C141_fields := by
  intro h
  obtain ⟨o, ho⟩ := decodeIn_one asciiCodec (List.replicate 3484 0) List.length_replicate
  have e := h asciiCodec _ 0 0 3484 o ho 7 0 [1]
  have e2 := (C141_append 7 asciiCodec _ 0 0 3484 o ho 0 (by decide) [1] (by decide)).2
  rw [e] at e2
  have e3 := congrArg (fun u : UserInfo => u.msgs[(1 : Fin 10)][0]?) e2
  simp only [first_of _ _ ho, block_one] at e3
  rw [List.getElem?_replicate] at e3
  have e4 : some (0 : UInt8) = some 1 := e3.trans (by
    simp only [Fin.getElem_fin]
    show ((Vector.set _ (0 + 1) _ _)[1])[0]? = _
    rw [Vector.getElem_set_self]
    rfl)
  exact absurd e4 (by decide)

/-! ## Examples -/

/-- Two records side by side in a block, as in shared memory. -/
example : ∃ o p, UserInfo.decodeIn asciiCodec [List.replicate 6968 7] 0 0 3484 = .ok o ∧ UserInfo.decodeIn asciiCodec [List.replicate 6968 7] 0 3484 3484 = .ok p ∧
    Apart 0 0 (0 + 3484) 0 3484 (3484 + 3484) := by
  have : ∀ s, s ≤ 3484 → ∃ o, UserInfo.decodeIn asciiCodec [List.replicate 6968 7] 0 s 3484 = .ok o := by
    intro s hs
    unfold UserInfo.decodeIn
    rw [block_one, UserInfo.decode_eq, if_pos ⟨by show 3448 < 3484; omega, by simp only [List.length_drop, List.length_replicate]; omega⟩, Res.ok_bind]
    exact ⟨_, rfl⟩
  obtain ⟨o, ho⟩ := this 0 (by omega)
  obtain ⟨p, hp⟩ := this 3484 (by omega)
  exact ⟨o, p, ho, hp, Or.inr (Or.inl (by omega))⟩

/-- A file of two records, and something in memory before. -/
example : ∃ H' os, openUserInfoCacheIn asciiCodec [[1, 2, 3]] (some (List.replicate 6968 7)) = .ok (H', os) ∧ os.length = 2 := by
  obtain ⟨H', os, h1, h2⟩ := C141_file_all asciiCodec [[1, 2, 3]] _ _ (C115_file asciiCodec (List.replicate 6968 7))
  refine ⟨H', os, h1, ?_⟩
  have := congrArg List.length h2
  rw [List.length_map, List.length_map] at this
  rw [this, slots, List.length_map, List.length_range, List.length_replicate]

/-- More than there is room for behind the last message. -/
example : (Blocks.block [List.replicate 3484 7] 0).length < 0 + 2392 + 100 * (9 : Fin 10).val + (List.replicate 193 (0 : UInt8)).length := by
  rw [block_one, List.length_replicate, List.length_replicate]
  decide

end Verif
