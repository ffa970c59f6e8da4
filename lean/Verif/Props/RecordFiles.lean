import Verif.Proofs.RecordFile
import Verif.Props.ArticleRecord
import Verif.Props.BoardRecord
/-!
# C10, C11, C15, C16, C17: record files
-/

namespace Verif
open Spec

/-- The persisted fields of an article record fit their places on disk, and the codec is faithful on the title. -/
structure FileHeader.Storable (c : Codec) (f : FileHeader) : Prop where
  filename : FitsTrim 28 f.filename
  owner : FitsTrim 14 f.owner
  date : FitsTrim 6 f.date
  title : FitsTrim 65 (c.enc f.title)
  titleC : c.dec (c.enc f.title) = f.title
  modified : FitsTime f.modified

theorem FileHeader.marshal_length (c : Codec) (f : FileHeader) : (f.marshal c).length = 128 :=
  runWrites_length (f.writesIn c)

theorem FileHeader.Storable.stored {c : Codec} {f : FileHeader} (h : f.Storable c) : storedArticle c f = persisted f := by
  unfold storedArticle persisted
  rw [cutTrim_of_fits h.filename, cutTrim_of_fits h.owner, cutTrim_of_fits h.date, cutTrim_of_fits h.title, h.titleC,
    wrap32_of_fits h.modified]

theorem FileHeader.parse_marshal (c : Codec) (f : FileHeader) (h : f.Storable c) :
    FileHeader.parse c (f.marshal c) = persisted f := by rw [f.parse_marshal_exact, h.stored]

theorem BoardHeader.parse_marshal (c : Codec) (b : BoardHeader) (h : b.Storable c) :
    BoardHeader.parse c (b.marshal c) = b := by rw [b.parse_marshal_exact, h.stored]

/-! ## C10 -/

theorem append_read {α : Type} {size : Nat} (hs : 0 < size) {parse : Bytes → Res α} {p : Bytes → α}
    (hp : ∀ b, b.length = size → parse b = .ok (p b)) {m : α → Bytes} (hm : ∀ r, (m r).length = size)
    (f0 : Option Bytes) (n : Nat) (h0 : (f0.getD []).length = size * n) (recs : List α)
    (hne : f0 ≠ none ∨ recs ≠ []) :
    ∃ old : List α, (f0 ≠ none → readFile size parse f0 = .ok old) ∧ old.length = n ∧
      readFile size parse (recs.foldl (fun f r => appendFile f (m r)) f0) =
        .ok (old ++ recs.map (fun r => p (m r))) := by
  obtain ⟨rs, hr, hd, hn⟩ := aligned_flatten (size := size) n _ h0
  refine ⟨rs.map p, ?_, by simp [hn], ?_⟩
  · intro hf
    cases f0 with
    | none => simp at hf
    | some d =>
      simp only [Option.getD_some] at hd
      rw [readFile_slots hs hp, hd, slots_flatten hs hr]
  · rw [foldl_appendFile_some m f0 recs hne, readFile_slots hs hp, hd, ← List.flatten_append,
      slots_flatten hs (hr.append ?_)]
    · simp [Function.comp_def]
    · intro x hx
      obtain ⟨r, _, rfl⟩ := List.mem_map.mp hx
      exact hm r

/-- C10 (article index), any records. `f0` is the file before (`none` if missing), holding `n` records. After appending `recs`
one by one, reading returns the previous records followed by `recs` as they are stored. -/
theorem C10_article_exact (c : Codec) (f0 : Option Bytes) (n : Nat) (h0 : (f0.getD []).length = 128 * n)
    (recs : List FileHeader) (hne : f0 ≠ none ∨ recs ≠ []) :
    ∃ old, (f0 ≠ none → openFileHeaderFile c f0 = .ok old) ∧ old.length = n ∧
      openFileHeaderFile c (recs.foldl (appendFileHeader c) f0) = .ok (old ++ recs.map (storedArticle c)) := by
  obtain ⟨old, h1, h2, h3⟩ := append_read (by omega) (FileHeader.unmarshal_eq c) (FileHeader.marshal_length c)
    f0 n h0 recs hne
  refine ⟨old, h1, h2, ?_⟩
  rw [List.map_congr_left (fun r _ => FileHeader.parse_marshal_exact c r)] at h3
  exact h3

/-- C10 (article index), records that fit: they read back as persisted (see C03 for the fields never written). -/
theorem C10_article_append_read (c : Codec) (f0 : Option Bytes) (n : Nat) (h0 : (f0.getD []).length = 128 * n)
    (recs : List FileHeader) (hne : f0 ≠ none ∨ recs ≠ []) (hs : ∀ r ∈ recs, r.Storable c) :
    ∃ old, (f0 ≠ none → openFileHeaderFile c f0 = .ok old) ∧ old.length = n ∧
      openFileHeaderFile c (recs.foldl (appendFileHeader c) f0) = .ok (old ++ recs.map persisted) := by
  obtain ⟨old, h1, h2, h3⟩ := C10_article_exact c f0 n h0 recs hne
  refine ⟨old, h1, h2, ?_⟩
  rw [List.map_congr_left (fun r hr => (hs r hr).stored)] at h3
  exact h3

/-- C10 (board list), any records. -/
theorem C10_board_exact (c : Codec) (f0 : Option Bytes) (n : Nat) (h0 : (f0.getD []).length = 256 * n)
    (recs : List BoardHeader) (hne : f0 ≠ none ∨ recs ≠ []) :
    ∃ old, (f0 ≠ none → openBoardHeaderFile c f0 = .ok old) ∧ old.length = n ∧
      openBoardHeaderFile c (recs.foldl (appendBoardHeader c) f0) = .ok (old ++ recs.map (storedBoard c)) := by
  obtain ⟨old, h1, h2, h3⟩ := append_read (by omega) (BoardHeader.unmarshal_eq c) (BoardHeader.marshal_length c)
    f0 n h0 recs hne
  refine ⟨old, h1, h2, ?_⟩
  rw [List.map_congr_left (fun r _ => BoardHeader.parse_marshal_exact c r)] at h3
  exact h3

/-- C10 (board list), records that fit. -/
theorem C10_board_append_read (c : Codec) (f0 : Option Bytes) (n : Nat) (h0 : (f0.getD []).length = 256 * n)
    (recs : List BoardHeader) (hne : f0 ≠ none ∨ recs ≠ []) (hs : ∀ r ∈ recs, r.Storable c) :
    ∃ old, (f0 ≠ none → openBoardHeaderFile c f0 = .ok old) ∧ old.length = n ∧
      openBoardHeaderFile c (recs.foldl (appendBoardHeader c) f0) = .ok (old ++ recs) := by
  obtain ⟨old, h1, h2, h3⟩ := C10_board_exact c f0 n h0 recs hne
  refine ⟨old, h1, h2, ?_⟩
  rw [List.map_congr_left (g := id) (fun r hr => (hs r hr).stored), List.map_id] at h3
  exact h3

theorem sampleArticle_storable : sampleArticle.Storable asciiCodec :=
  ⟨by decide, by decide, by decide, by decide, by decide, by decide⟩

/-- Non-vacuity of C10: a missing file, three appends. -/
example : ((none : Option Bytes).getD []).length = 128 * 0 ∧
    ((none : Option Bytes) ≠ none ∨ [sampleArticle, sampleArticle, sampleArticle] ≠ []) ∧
    ∀ r ∈ [sampleArticle, sampleArticle, sampleArticle], r.Storable asciiCodec :=
  ⟨rfl, Or.inr (by simp), by simp [sampleArticle_storable]⟩

/-! ## C11 -/

theorem updateOffset_toInt (index : UInt64) :
    (updateOffset index).toInt = (128 * (index.toNat : Int)).bmod (2 ^ 64) := by
  have e : index.toInt64.toInt = (index.toNat : Int).bmod (2 ^ 64) := by
    show index.toInt64.toBitVec.toInt = _
    rw [UInt64.toBitVec_toInt64, BitVec.toInt_eq_toNat_bmod]
    rfl
  have e2 : (128 : Int64).toInt = 128 := by decide
  unfold updateOffset
  rw [Int64.toInt_mul, e, e2, Int.bmod_mul_bmod, Int.mul_comm]

theorem updateOffset_small (index : UInt64) (h : index.toNat < 2 ^ 56) :
    (updateOffset index).toInt = 128 * (index.toNat : Int) := by
  rw [updateOffset_toInt, Int.bmod_eq_of_le] <;> omega

theorem updateRecord_small (d : Bytes) (index : UInt64) (h : index.toNat < 2 ^ 56) (rec : Bytes) :
    updateRecord (some d) index rec = .ok (writeAt d (128 * index.toNat) rec) := by
  have e := updateOffset_small index h
  unfold updateRecord
  have hn : ¬ updateOffset index < 0 := by
    rw [Int64.lt_iff_toInt_lt, e]
    simp; omega
  simp only [if_neg hn, e]
  congr 2

/-- C11, index inside the file: the record count and every other slot are unchanged (byte for byte), the slot
`index` holds the new record, and it reads back as stored. -/
theorem C11_update_in_range (c : Codec) (d : Bytes) (n : Nat) (hd : d.length = 128 * n) (hn : n ≤ 2 ^ 56)
    (index : UInt64) (hi : index.toNat < n) (r : FileHeader) :
    ∃ d', updateFileHeader c (some d) index r = .ok d' ∧
      d'.length = d.length ∧ slots 128 d' = (slots 128 d).set index.toNat (r.marshal c) ∧
      ∀ old, openFileHeaderFile c (some d) = .ok old →
        openFileHeaderFile c (some d') = .ok (old.set index.toNat (storedArticle c r)) := by
  obtain ⟨rs, hr, rfl, hl⟩ := aligned_flatten (size := 128) n _ hd
  have hrs : Sized 128 (rs.set index.toNat (r.marshal c)) := by
    intro x hx
    rcases List.mem_or_eq_of_mem_set hx with hx | hx
    · exact hr x hx
    · rw [hx]; exact r.marshal_length c
  refine ⟨(rs.set index.toNat (r.marshal c)).flatten, ?_, ?_, ?_, ?_⟩
  · unfold updateFileHeader
    rw [updateRecord_small _ _ (by omega), writeAt_record hr (by omega) (r.marshal_length c)]
  · rw [hrs.flatten_length, hr.flatten_length, List.length_set]
  · rw [slots_flatten (by omega) hrs, slots_flatten (by omega) hr]
  · intro old ho
    unfold openFileHeaderFile at ho ⊢
    rw [readFile_slots (by omega) (FileHeader.unmarshal_eq c)] at ho ⊢
    rw [slots_flatten (by omega) hr] at ho
    rw [slots_flatten (by omega) hrs, ← Res.ok.inj ho, List.map_set, FileHeader.parse_marshal_exact c r]

/-- The claim of C11 about indices outside the file: no existing record changes. -/
def Spec.UpdateOutsideHarmless : Prop :=
  ∀ (d : Bytes) (n : Nat), d.length = 128 * n → ∀ (index : UInt64), n ≤ index.toNat → ∀ (rec : Bytes),
    rec.length = 128 → ∀ d', updateRecord (some d) index rec = .ok d' → ∀ k, k < n → slot 128 d' k = slot 128 d k

/-- C11 is false of the code for huge indices: index 2^57 wraps to offset 0 and overwrites record 0. -/
theorem C11_update_outside_refuted : ¬ Spec.UpdateOutsideHarmless := by
  intro h
  have hu : updateRecord (some (zeros 128)) 144115188075855872 (List.replicate 128 1) =
      .ok (List.replicate 128 1) := by decide +kernel
  have := h (zeros 128) 1 (by simp) 144115188075855872 (by decide) (List.replicate 128 1) (by simp) _ hu 0 (by omega)
  revert this
  decide +kernel

/-- C11, indices outside the file below 2^56 (partial: the full property wants all indices): no existing record
changes; the file grows, with zero records up to the new one. -/
theorem C11_update_outside_partial (d : Bytes) (n : Nat) (hd : d.length = 128 * n) (index : UInt64)
    (h1 : n ≤ index.toNat) (h2 : index.toNat < 2 ^ 56) (rec : Bytes) (hrec : rec.length = 128) :
    ∃ d', updateRecord (some d) index rec = .ok d' ∧
      slots 128 d' = slots 128 d ++ List.replicate (index.toNat - n) (zeros 128) ++ [rec] := by
  obtain ⟨rs, hr, rfl, hl⟩ := aligned_flatten (size := 128) n _ hd
  have hz : Sized 128 (List.replicate (index.toNat - n) (zeros 128)) := by
    intro x hx; rw [List.eq_of_mem_replicate hx]; simp
  have hrc : Sized 128 [rec] := by intro x hx; simp at hx; rw [hx, hrec]
  refine ⟨_, updateRecord_small _ _ h2 rec, ?_⟩
  have ez : zeros (128 * index.toNat - rs.flatten.length) =
      (List.replicate (index.toNat - n) (zeros 128)).flatten := by
    rw [hd, ← Nat.mul_sub]
    unfold zeros
    rw [List.flatten_replicate_replicate, Nat.mul_comm]
  rw [writeAt_beyond (by rw [hd]; omega), ez]
  have e3 : rec = [rec].flatten := by simp
  rw [e3, ← List.flatten_append, ← List.flatten_append, slots_flatten (by omega) ((hr.append hz).append hrc),
    slots_flatten (by omega) hr]
  simp

/-- The exact law for all indices: only `index % 2^57` matters, and the upper half of that range is refused. -/
theorem C11_update_index_wraps (f : Option Bytes) (index : UInt64) (rec : Bytes) :
    updateRecord f index rec = updateRecord f (UInt64.ofNat (index.toNat % 2 ^ 57)) rec ∧
    (2 ^ 56 ≤ index.toNat % 2 ^ 57 → ∀ d', updateRecord f index rec ≠ .ok d') := by
  have e : updateOffset index = updateOffset (UInt64.ofNat (index.toNat % 2 ^ 57)) := by
    apply Int64.toInt_inj.mp
    rw [updateOffset_toInt, updateOffset_toInt, UInt64.toNat_ofNat']
    have h := index.toNat_lt
    rw [Nat.mod_eq_of_lt (a := index.toNat % 2 ^ 57) (by omega)]
    rw [Int.bmod_eq_bmod_iff_bmod_sub_eq_zero, ← Int.dvd_iff_bmod_eq_zero]
    omega
  constructor
  · unfold updateRecord
    rw [e]
  · intro h d' hd'
    cases f with
    | none => simp [updateRecord] at hd'
    | some d =>
      have hneg : updateOffset index < 0 := by
        rw [Int64.lt_iff_toInt_lt, updateOffset_toInt]
        have := index.toNat_lt
        simp only [Int.bmod_def, Int64.toInt_zero]
        split <;> omega
      simp [updateRecord, hneg] at hd'

/-- Non-vacuity of C11. -/
example : (zeros 384).length = 128 * 3 ∧ (2 : UInt64).toNat < 3 ∧ 3 ≤ (7 : UInt64).toNat := by simp

/-! ## C15 -/

/-- What the schedule keeps true: the file is the old content followed by the records written so far, in write
order, each process at most once, exactly those past their write. -/
structure ApInv (data : Nat → Bytes) (f0 : Option Bytes) (s : ApState) : Prop where
  content : s.file.getD [] = f0.getD [] ++ (s.order.map data).flatten
  nodup : s.order.Nodup
  mem : ∀ i, i ∈ s.order ↔ 2 ≤ s.pc i
  opened : ∀ i, s.pc i ≠ 0 → s.file ≠ none
  kept : f0 ≠ none → s.file ≠ none

theorem ApInv.step {data : Nat → Bytes} {f0 : Option Bytes} {s : ApState} (h : ApInv data f0 s) (i : Nat) :
    ApInv data f0 (s.step data i) := by
  unfold ApState.step
  split
  · rename_i h0
    refine ⟨h.content, h.nodup, ?_, by simp, by simp⟩
    intro j
    by_cases hj : j = i
    · subst hj
      have := h.mem j
      simp [this, h0]
    · simp [hj, h.mem j]
  · split
    · rename_i h0 h1
      have hi : i ∉ s.order := by rw [h.mem i]; omega
      refine ⟨?_, ?_, ?_, by simp [appendFile], by simp [appendFile]⟩
      · simp [appendFile, h.content]
      · exact List.nodup_append.mpr ⟨h.nodup, by simp, by
          intro a ha b hb
          simp at hb
          subst hb
          rintro rfl
          exact hi ha⟩
      · intro j
        by_cases hj : j = i
        · subst hj; simp
        · simp [hj, h.mem j]
    · split
      · rename_i h0 h1 h2
        refine ⟨h.content, h.nodup, ?_, ?_, h.kept⟩
        · intro j
          by_cases hj : j = i
          · subst hj
            have := h.mem j
            simp [this, h2]
          · simp [hj, h.mem j]
        · intro j hj
          exact h.opened i (by omega)
      · exact h

theorem ApInv.run {data : Nat → Bytes} {f0 : Option Bytes} (sched : List Nat) :
    ∀ {s : ApState}, ApInv data f0 s → ApInv data f0 (s.run data sched) := by
  induction sched with
  | nil => intro s h; exact h
  | cons i is ih => intro s h; exact ih (h.step i)

theorem ApInv.start (data : Nat → Bytes) (f0 : Option Bytes) : ApInv data f0 (ApState.start f0) :=
  ⟨by simp [ApState.start], by simp [ApState.start], by simp [ApState.start], by simp [ApState.start], id⟩

/-- C15 (article index). Any number of processes append concurrently, process `i` the record `rec i`; `sched` is
any schedule of their system calls. At any moment the index reads back as the old records followed by the records
of exactly the processes that have completed their write, each once, in write order; in particular, when the `n`
processes are done the written records are a permutation of all `n`. -/
theorem C15_concurrent_appends (c : Codec) (f0 : Option Bytes) (k : Nat) (h0 : (f0.getD []).length = 128 * k)
    (rec : Nat → FileHeader) (sched : List Nat) :
    let s := (ApState.start f0).run (fun i => (rec i).marshal c) sched
    s.order.Nodup ∧ (∀ i, i ∈ s.order ↔ 2 ≤ s.pc i) ∧
    (∀ n, (∀ i, 2 ≤ s.pc i ↔ i < n) → s.order.Perm (List.range n)) ∧
    (s.file ≠ none → ∃ old, (f0 ≠ none → openFileHeaderFile c f0 = .ok old) ∧ old.length = k ∧
      openFileHeaderFile c s.file = .ok (old ++ s.order.map (fun i => storedArticle c (rec i)))) := by
  intro s
  have inv : ApInv _ f0 s := ApInv.run sched (ApInv.start _ f0)
  refine ⟨inv.nodup, inv.mem, ?_, ?_⟩
  · intro n hn
    rw [List.perm_ext_iff_of_nodup inv.nodup List.nodup_range]
    intro i
    rw [inv.mem i, hn i, List.mem_range]
  · intro hne
    obtain ⟨rs, hr, hd, hl⟩ := aligned_flatten (size := 128) k _ h0
    have ho : Sized 128 (s.order.map (fun i => (rec i).marshal c)) := by
      intro x hx
      obtain ⟨i, _, rfl⟩ := List.mem_map.mp hx
      exact (rec i).marshal_length c
    have hf : s.file = some (rs.flatten ++ (s.order.map (fun i => (rec i).marshal c)).flatten) := by
      have := inv.content
      cases hfile : s.file with
      | none => exact absurd hfile hne
      | some d => rw [hfile] at this; rw [← hd, ← this]; rfl
    refine ⟨rs.map (FileHeader.parse c), ?_, by simp [hl], ?_⟩
    · intro hf0
      cases f0 with
      | none => simp at hf0
      | some d =>
        simp only [Option.getD_some] at hd
        unfold openFileHeaderFile
        rw [readFile_slots (by omega) (FileHeader.unmarshal_eq c), hd, slots_flatten (by omega) hr]
    · rw [hf, ← List.flatten_append]
      unfold openFileHeaderFile
      rw [readFile_slots (by omega) (FileHeader.unmarshal_eq c), slots_flatten (by omega) (hr.append ho)]
      simp only [List.map_append, List.map_map, Function.comp_def, FileHeader.parse_marshal_exact]

/-- C15 at the level of bytes, for records of any kind (board list): no lost, torn or mixed record. -/
theorem C15_concurrent_appends_bytes (data : Nat → Bytes) (f0 : Option Bytes) (sched : List Nat) (n : Nat)
    (hdone : ∀ i, 2 ≤ ((ApState.start f0).run data sched).pc i ↔ i < n) :
    ∃ order : List Nat, order.Perm (List.range n) ∧
      ((ApState.start f0).run data sched).file.getD [] = f0.getD [] ++ (order.map data).flatten := by
  have inv : ApInv data f0 _ := ApInv.run sched (ApInv.start _ f0)
  refine ⟨_, ?_, inv.content⟩
  rw [List.perm_ext_iff_of_nodup inv.nodup List.nodup_range]
  intro i
  rw [inv.mem i, hdone i, List.mem_range]

/-- Non-vacuity of C15: two interleaved appenders, the second one writing first. -/
example : let s := (ApState.start none).run (fun i => [UInt8.ofNat i]) [0, 1, 1, 0, 0, 1]
    (∀ i, 2 ≤ s.pc i ↔ i < 2) ∧ s.file = some [1, 0] := by
  constructor
  · intro i
    match i with
    | 0 => decide
    | 1 => decide
    | i + 2 => simp [ApState.run, ApState.step, ApState.start]
  · decide

/-! ## C16 -/

/-- The full claim of C16: after an append cut short at byte `k`, a record appended later is read back. -/
def Spec.TornAppendHarmless : Prop :=
  ∀ (c : Codec) (d : Bytes) (n : Nat), d.length = 128 * n → ∀ (r : FileHeader) (k : Nat), k ≤ 128 →
    ∀ (r2 : FileHeader), r2.Storable c →
    ∃ l, openFileHeaderFile c (appendFileHeader c (some (d ++ (r.marshal c).take k)) r2) = .ok l ∧ persisted r2 ∈ l

/-- C16 is false of the code: after one stray byte the next record is read shifted by one. -/
theorem C16_torn_append_refuted : ¬ Spec.TornAppendHarmless := by
  intro h
  obtain ⟨l, hl, hm⟩ := h asciiCodec [] 0 rfl sampleArticle 1 (by omega) sampleArticle sampleArticle_storable
  unfold openFileHeaderFile appendFileHeader appendFile at hl
  rw [readFile_slots (by omega) (FileHeader.unmarshal_eq asciiCodec)] at hl
  rw [← Res.ok.inj hl] at hm
  revert hm
  decide +kernel

/-- C16 (partial: the full claim needs the records appended *after* the tear too). Whatever tail a torn append and
anything after it left, the records before the tear are read back intact; and if the tear fell on a record boundary
(`k = 0` or `k = 128`), later records are read back as well. -/
theorem C16_torn_append_partial (c : Codec) (d : Bytes) (n : Nat) (hd : d.length = 128 * n) (old : List FileHeader)
    (ho : openFileHeaderFile c (some d) = .ok old) :
    (∀ tail : Bytes, ∃ l, openFileHeaderFile c (some (d ++ tail)) = .ok (old ++ l)) ∧
    (∀ (r : FileHeader) (k : Nat), k = 0 ∨ k = 128 → ∀ rs : List FileHeader,
      ∃ l, l.length = k / 128 ∧
        openFileHeaderFile c (rs.foldl (appendFileHeader c) (some (d ++ (r.marshal c).take k))) =
          .ok (old ++ l ++ rs.map (storedArticle c))) := by
  obtain ⟨rs, hr, rfl, hl⟩ := aligned_flatten (size := 128) n _ hd
  unfold openFileHeaderFile at ho
  rw [readFile_slots (by omega) (FileHeader.unmarshal_eq c), slots_flatten (by omega) hr] at ho
  have ho := Res.ok.inj ho
  constructor
  · intro tail
    unfold openFileHeaderFile
    rw [readFile_slots (by omega) (FileHeader.unmarshal_eq c)]
    refine ⟨((slots 128 (rs.flatten ++ tail)).drop n).map (FileHeader.parse c), ?_⟩
    rw [← ho, ← List.map_append]
    congr 2
    conv => lhs; rw [← List.take_append_drop n (slots 128 (rs.flatten ++ tail))]
    congr 1
    have hN : n ≤ (128 * n + tail.length + 128 - 1) / 128 := by omega
    apply List.ext_getElem
    · simp only [slots, List.length_take, List.length_map, List.length_range, List.length_append,
        hr.flatten_length, hl]
      omega
    · intro i h1 h2
      simp only [List.getElem_take, slots, List.getElem_map, List.getElem_range]
      exact slot_flatten hr tail i h2
  · intro r k hk xs
    rcases hk with rfl | rfl
    · obtain ⟨o, h1, h2, h3⟩ := C10_article_exact c (some rs.flatten) n hd xs (Or.inl (by simp))
      have h1 := h1 (by simp)
      unfold openFileHeaderFile at h1
      rw [readFile_slots (by omega) (FileHeader.unmarshal_eq c), slots_flatten (by omega) hr] at h1
      have h1 := Res.ok.inj h1
      refine ⟨[], by simp, ?_⟩
      rw [← ho, h1]
      simpa using h3
    · have e : (r.marshal c).take 128 = r.marshal c := List.take_of_length_le (by rw [r.marshal_length c]; omega)
      have hrr : Sized 128 (rs ++ [r.marshal c]) := hr.append (by
        intro x hx; simp at hx; rw [hx]; exact r.marshal_length c)
      have ef : rs.flatten ++ r.marshal c = (rs ++ [r.marshal c]).flatten := by simp
      obtain ⟨o, h1, h2, h3⟩ := C10_article_exact c (some (rs.flatten ++ r.marshal c)) (n + 1)
        (by simp only [Option.getD_some]; rw [ef, hrr.flatten_length]; simp [hl]) xs (Or.inl (by simp))
      have h1 := h1 (by simp)
      unfold openFileHeaderFile at h1
      rw [readFile_slots (by omega) (FileHeader.unmarshal_eq c), ef, slots_flatten (by omega) hrr] at h1
      have h1 := Res.ok.inj h1
      refine ⟨[FileHeader.parse c (r.marshal c)], by simp, ?_⟩
      rw [e, h3, ← ho, ← h1]
      simp

/-- Non-vacuity of C16. -/
example : ([] : Bytes).length = 128 * 0 ∧ openFileHeaderFile asciiCodec (some []) = .ok [] := ⟨rfl, rfl⟩

/-! ## C17 -/

/-- The full claim of C17 for a reader: whatever the reads return, the loop ends. -/
def Spec.ReaderEnds {α : Type} (size : Nat) (parse : Bytes → Res α) : Prop :=
  ∀ src : Nat → ReadRes, ∃ fuel, readLoop size parse src fuel 0 ≠ .diverge

theorem readLoop_fail_diverges {α : Type} {size : Nat} {parse : Bytes → Res α} {p : Bytes → α}
    (hp : ∀ b, b.length = size → parse b = .ok (p b)) (src : Nat → ReadRes) (fuel : Nat) :
    ∀ k, (∀ j, k ≤ j → src j ≠ .eof) → readLoop size parse src fuel k = .diverge := by
  induction fuel with
  | zero => intro k _; rfl
  | succ fuel ih =>
    intro k h
    have := ih (k + 1) (fun j hj => h j (by omega))
    rw [readLoop]
    cases hsrc : src k with
    | eof => exact absurd hsrc (h k (by omega))
    | fail => simp [this, hp _ (zeros_length size)]
    | data bs => simp [this, hp _ (padTo_length size bs)]

theorem readLoop_eof_ends {α : Type} {size : Nat} {parse : Bytes → Res α} {p : Bytes → α}
    (hp : ∀ b, b.length = size → parse b = .ok (p b)) (src : Nat → ReadRes) (m : Nat) :
    ∀ k, src (k + m) = .eof → ∀ fuel, m < fuel →
      ∃ l, readLoop size parse src fuel k = .ok l ∧ l.length ≤ m := by
  induction m with
  | zero =>
    intro k hk fuel hf
    obtain ⟨fuel, rfl⟩ : ∃ n, fuel = n + 1 := ⟨fuel - 1, by omega⟩
    exact ⟨[], by rw [readLoop]; simp at hk; rw [hk], by simp⟩
  | succ m ih =>
    intro k hk fuel hf
    obtain ⟨fuel, rfl⟩ : ∃ n, fuel = n + 1 := ⟨fuel - 1, by omega⟩
    obtain ⟨l, hl, hlen⟩ := ih (k + 1) (by rw [← hk]; congr 1; omega) fuel (by omega)
    rw [readLoop]
    cases hsrc : src k with
    | eof => exact ⟨[], rfl, by simp⟩
    | fail => exact ⟨p (zeros size) :: l, by simp [hl, hp _ (zeros_length size)], by simpa using hlen⟩
    | data bs => exact ⟨p (padTo size bs) :: l, by simp [hl, hp _ (padTo_length size bs)], by simpa using hlen⟩

/-- C17 is false of the code: if reads keep failing with an error other than EOF (for example the path is a
directory), the three readers never return. -/
theorem C17_read_ends_refuted (c : Codec) :
    ¬ Spec.ReaderEnds 128 (FileHeader.unmarshal c) ∧ ¬ Spec.ReaderEnds 256 (BoardHeader.unmarshal c) ∧
      ¬ Spec.ReaderEnds 512 (Userec.unmarshal c) := by
  refine ⟨?_, ?_, ?_⟩ <;> intro h <;> obtain ⟨fuel, hf⟩ := h (fun _ => .fail)
  · exact hf (readLoop_fail_diverges (FileHeader.unmarshal_eq c) _ fuel 0 (by simp))
  · exact hf (readLoop_fail_diverges (BoardHeader.unmarshal_eq c) _ fuel 0 (by simp))
  · exact hf (readLoop_fail_diverges (Userec.unmarshal_eq c) _ fuel 0 (by simp))

/-- What the readers have in common. -/
theorem read_ends_iff {α : Type} {size : Nat} {parse : Bytes → Res α} {p : Bytes → α}
    (hp : ∀ b, b.length = size → parse b = .ok (p b)) (src : Nat → ReadRes) :
    (∃ fuel l, readLoop size parse src fuel 0 = .ok l) ↔ ∃ k, src k = .eof := by
  constructor
  · rintro ⟨fuel, l, hl⟩
    by_cases h : ∃ k, src k = .eof
    · exact h
    · have := readLoop_fail_diverges hp src fuel 0 (fun j _ e => h ⟨j, e⟩)
      rw [hl] at this
      cases this
  · rintro ⟨k, hk⟩
    obtain ⟨l, hl, _⟩ := readLoop_eof_ends hp src k 0 (by simpa using hk) (k + 1) (by omega)
    exact ⟨k + 1, l, hl⟩

/-- C17 (partial, exact): each reader returns its records if and only if some read reports end of file; a regular
file always does. (Missing for the full claim: sources that fail forever.) -/
theorem C17_read_ends_partial (c : Codec) (src : Nat → ReadRes) :
    ((∃ fuel l, readLoop 128 (FileHeader.unmarshal c) src fuel 0 = .ok l) ↔ ∃ k, src k = .eof) ∧
    ((∃ fuel l, readLoop 256 (BoardHeader.unmarshal c) src fuel 0 = .ok l) ↔ ∃ k, src k = .eof) ∧
    ((∃ fuel l, readLoop 512 (Userec.unmarshal c) src fuel 0 = .ok l) ↔ ∃ k, src k = .eof) :=
  ⟨read_ends_iff (FileHeader.unmarshal_eq c) src, read_ends_iff (BoardHeader.unmarshal_eq c) src,
    read_ends_iff (Userec.unmarshal_eq c) src⟩

/-- C17 for regular files: reading any content, aligned or not, returns one record per started slot. -/
theorem C17_read_regular_file (c : Codec) (d : Bytes) :
    openFileHeaderFile c (some d) = .ok ((slots 128 d).map (FileHeader.parse c)) ∧
    openBoardHeaderFile c (some d) = .ok ((slots 256 d).map (BoardHeader.parse c)) ∧
    openUserecFile c (some d) = .ok ((slots 512 d).map (Userec.parse c)) :=
  ⟨readFile_slots (by omega) (FileHeader.unmarshal_eq c) d, readFile_slots (by omega) (BoardHeader.unmarshal_eq c) d,
    readFile_slots (by omega) (Userec.unmarshal_eq c) d⟩

/-- Non-vacuity of C17: a stream with a failing read that still ends. -/
example : ∃ k, (fun k => if k < 2 then ReadRes.fail else .eof) k = .eof := ⟨2, rfl⟩

end Verif
