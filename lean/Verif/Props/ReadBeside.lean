import Verif.Props.Recommend
import Verif.Props.BoardRemoval
/-!
# C100: reading a record file while others write it
-/

namespace Verif
open Spec

/-! ## The read loop on a changing file -/

theorem readLoop_hist {α : Type} {size : Nat} {parse : Bytes → Res α} {p : Bytes → α}
    (hp : ∀ b, b.length = size → parse b = .ok (p b)) (hist : Nat → Bytes) (N : Nat) (fuel : Nat) : ∀ k, k ≤ N → N < k + fuel →
    (∀ i, k ≤ i → i < N → readPos size hist i < (hist i).length) → (hist N).length ≤ readPos size hist N →
    readLoop size parse (histSrc size hist) fuel k = .ok ((List.range' k (N - k)).map (fun i =>
      p (padTo size (slice (hist i) (readPos size hist i) (readPos size hist i + size))))) := by
  induction fuel with
  | zero => intro k h1 h2; omega
  | succ fuel ih =>
    intro k h1 h2 h3 h4
    by_cases hk : k < N
    · have e : N - k = (N - (k + 1)) + 1 := by omega
      rw [readLoop, histSrc, if_pos (h3 k (Nat.le_refl _) hk), e, List.range'_succ]
      simp only [hp _ (padTo_length _ _), ih (k + 1) (by omega) (by omega) (fun i hi => h3 i (by omega)) h4, Res.ok_bind, List.map_cons]
    · have e : N - k = 0 := by omega
      obtain rfl : k = N := by omega
      rw [readLoop, histSrc, if_neg (by omega), e]
      rfl

/-- The reads never end: the loop does not return. -/
theorem readLoop_hist_diverge {α : Type} {size : Nat} {parse : Bytes → Res α} {p : Bytes → α}
    (hp : ∀ b, b.length = size → parse b = .ok (p b)) (hist : Nat → Bytes)
    (h : ∀ i, readPos size hist i < (hist i).length) (fuel : Nat) : ∀ k,
    readLoop size parse (histSrc size hist) fuel k = .diverge := by
  induction fuel with
  | zero => intro k; rfl
  | succ fuel ih =>
    intro k
    rw [readLoop, histSrc, if_pos (h k)]
    simp only [hp _ (padTo_length _ _), ih, Res.ok_bind]
    rfl

theorem readPos_aligned {size : Nat} {hist : Nat → Bytes} {len : Nat → Nat} (ha : ∀ i, (hist i).length = size * len i) :
    ∀ k, (∀ i, i < k → i < len i) → readPos size hist k = size * k := by
  intro k
  induction k with
  | zero => intro _; simp [readPos]
  | succ k ih =>
    intro h
    have hk := h k (by omega)
    rw [readPos, ih (fun i hi => h i (by omega)), ha k, ← Nat.mul_sub, Nat.mul_succ, Nat.min_eq_left]
    exact Nat.le_mul_of_pos_right _ (by omega)

/-- The read loop when the file always holds whole records. -/
theorem readLoop_hist_aligned {α : Type} {size : Nat} (hs : 0 < size) {parse : Bytes → Res α} {p : Bytes → α}
    (hp : ∀ b, b.length = size → parse b = .ok (p b)) (hist : Nat → Bytes) (len : Nat → Nat) (ha : ∀ i, (hist i).length = size * len i)
    (N : Nat) (hlt : ∀ i, i < N → i < len i) (hN : len N ≤ N) (fuel : Nat) (hf : N < fuel) :
    readLoop size parse (histSrc size hist) fuel 0 = .ok ((List.range N).map (fun i => p (slot size (hist i) i))) := by
  have hpos : ∀ k, k ≤ N → readPos size hist k = size * k := fun k hk => readPos_aligned ha k (fun i hi => hlt i (by omega))
  rw [readLoop_hist hp hist N fuel 0 (by omega) (by omega) ?_ ?_]
  · rw [List.range_eq_range', Nat.sub_zero]
    congr 1
    apply List.map_congr_left
    intro i hi
    have : i < N := by simpa using hi
    rw [hpos i (by omega)]
    rfl
  · intro i _ hi
    rw [hpos i (by omega), ha i]
    exact Nat.mul_lt_mul_of_pos_left (hlt i hi) hs
  · rw [hpos N (Nat.le_refl _), ha N]
    exact Nat.mul_le_mul_left _ hN

/-- **C100, exact** (article list). The file holds whole records whenever it is read; `len i` of them at read number `i`. Entry `i` of the
result is what slot `i` held at read number `i`, and the list ends at the first read that finds no further record. -/
theorem C100_articles_exact (c : Codec) (hist : Nat → Bytes) (len : Nat → Nat) (ha : ∀ i, (hist i).length = 128 * len i)
    (N : Nat) (hlt : ∀ i, i < N → i < len i) (hN : len N ≤ N) (fuel : Nat) (hf : N < fuel) :
    openFileHeaderWhile c hist fuel = .ok ((List.range N).map (fun i => FileHeader.parse c (slot 128 (hist i) i))) :=
  readLoop_hist_aligned (by omega) (FileHeader.unmarshal_eq c) hist len ha N hlt hN fuel hf

/-- **C100, exact** (board list). -/
theorem C100_boards_exact (c : Codec) (hist : Nat → Bytes) (len : Nat → Nat) (ha : ∀ i, (hist i).length = 256 * len i)
    (N : Nat) (hlt : ∀ i, i < N → i < len i) (hN : len N ≤ N) (fuel : Nat) (hf : N < fuel) :
    openBoardHeaderWhile c hist fuel = .ok ((List.range N).map (fun i => BoardHeader.parse c (slot 256 (hist i) i))) :=
  readLoop_hist_aligned (by omega) (BoardHeader.unmarshal_eq c) hist len ha N hlt hN fuel hf

/-- A reader that the appenders always stay ahead of never returns. -/
theorem C100_chased (c : Codec) (hist : Nat → Bytes) (len : Nat → Nat) (ha : ∀ i, (hist i).length = 128 * len i)
    (hlt : ∀ i, i < len i) (fuel : Nat) : openFileHeaderWhile c hist fuel = .diverge := by
  refine readLoop_hist_diverge (FileHeader.unmarshal_eq c) hist (fun i => ?_) fuel 0
  rw [readPos_aligned ha i (fun k _ => hlt k), ha i]
  exact Nat.mul_lt_mul_of_pos_left (hlt i) (by omega)

/-! ## The claim -/

/-- The content of the list after each call of a schedule. -/
def Spec.timeline (c : Codec) (ix : Nat → UInt64) (u : Nat → Int8) (d : Bytes) (acts : List RecAct) (m : Nat) : Bytes :=
  ((RecState.init d).run c ix u (acts.take m)).file

/-- The claim: a reader whose read number `k` happens at time `tm k` returns the list that the file held at some time. -/
def Spec.ReadsSnapshot (c : Codec) : Prop :=
  ∀ (ix : Nat → UInt64) (u : Nat → Int8) (rs : List Bytes), Sized 128 rs → (∀ p, (ix p).toNat < 2 ^ 56) → ∀ acts, WholeAppends acts →
    ∀ tm : Nat → Nat, (∀ k, tm k ≤ tm (k + 1)) → ∀ fuel l,
      openFileHeaderWhile c (fun k => timeline c ix u rs.flatten acts (tm k)) fuel = .ok l →
      ∃ m, openFileHeaderFile c (some (timeline c ix u rs.flatten acts m)) = .ok l

/-- **C100, partial.** If the calls are appends only, the result is the list at the time of the last read. What is missing: updates, see
`C100_snapshot_refuted`. -/
theorem C100_snapshot_partial (c : Codec) (ix : Nat → UInt64) (u : Nat → Int8) (rs : List Bytes) (hsz : Sized 128 rs)
    (acts : List RecAct) (hw : WholeAppends acts) (ha : ∀ a ∈ acts, ∃ bs, a = .append bs) (tm : Nat → Nat)
    (ht : ∀ k, tm k ≤ tm (k + 1)) (fuel : Nat) (l : List FileHeader)
    (hl : openFileHeaderWhile c (fun k => timeline c ix u rs.flatten acts (tm k)) fuel = .ok l) :
    openFileHeaderFile c (some (timeline c ix u rs.flatten acts (tm l.length))) = .ok l := by
  have hrun : ∀ (as : List RecAct) (s : RecState), (∀ a ∈ as, ∃ bs, a = .append bs) →
      (s.run c ix u as).file = s.file ++ (appended as).flatten := by
    intro as
    induction as with
    | nil => intro s _; simp [RecState.run, appended]
    | cons a as ih =>
      intro s h
      obtain ⟨bs, rfl⟩ := h a (by simp)
      have := ih (s.step c ix u (.append bs)) (fun x hx => h x (by simp [hx]))
      show ((s.step c ix u (.append bs)).run c ix u as).file = _
      rw [this]
      simp [RecState.step, appended]
  have htl : ∀ m, timeline c ix u rs.flatten acts m = (rs ++ appended (acts.take m)).flatten := by
    intro m
    unfold timeline
    rw [hrun _ _ (fun a h => ha a (List.mem_of_mem_take h))]
    simp [RecState.init]
  have hszt : ∀ m, Sized 128 (rs ++ appended (acts.take m)) := by
    intro m
    refine hsz.append ?_
    intro x hx
    obtain ⟨a, h1, h2⟩ := List.mem_filterMap.mp hx
    obtain ⟨bs, rfl⟩ := ha a (List.mem_of_mem_take h1)
    simp only [Option.some.injEq] at h2
    exact h2 ▸ hw bs (List.mem_of_mem_take h1)
  have hpre : ∀ m m', m ≤ m' → (rs ++ appended (acts.take m)) <+: (rs ++ appended (acts.take m')) := by
    intro m m' h
    rw [List.prefix_append_right_inj]
    exact List.IsPrefix.filterMap _ (List.take_prefix_take_left h)
  have hmono : ∀ i k, i ≤ k → tm i ≤ tm k := by
    intro i k h
    induction h with
    | refl => exact Nat.le_refl _
    | step _ ih => exact Nat.le_trans ih (ht _)
  let len : Nat → Nat := fun k => (rs ++ appended (acts.take (tm k))).length
  have hlen : ∀ i, (timeline c ix u rs.flatten acts (tm i)).length = 128 * len i := by
    intro i
    rw [htl, (hszt _).flatten_length]
  by_cases hN : ∃ N, len N ≤ N
  · -- the first read that finds the end
    obtain ⟨N, h1, h2⟩ : ∃ N, len N ≤ N ∧ ∀ i, i < N → i < len i := by
      obtain ⟨N, hN⟩ := hN
      induction N using Nat.strongRecOn with
      | ind N ih =>
        by_cases h : ∃ i, i < N ∧ len i ≤ i
        · obtain ⟨i, h1, h2⟩ := h
          exact ih i h1 h2
        · exact ⟨N, hN, fun i hi => Nat.lt_of_not_le (fun hle => h ⟨i, hi, hle⟩)⟩
    have hfuel : N < fuel := by
      rcases Nat.lt_or_ge N fuel with h | h
      · exact h
      · exfalso
        -- too few rounds: no result
        have : ∀ (fuel k : Nat), k + fuel ≤ N →
            readLoop 128 (FileHeader.unmarshal c) (histSrc 128 (fun k => timeline c ix u rs.flatten acts (tm k))) fuel k = .diverge := by
          intro fuel
          induction fuel with
          | zero => intro k _; rfl
          | succ fuel ih =>
            intro k hk
            have hp := readPos_aligned hlen k (fun i hi => h2 i (by omega))
            rw [readLoop, histSrc, if_pos ?_]
            · simp only [FileHeader.unmarshal_eq c _ (padTo_length _ _), ih (k + 1) (by omega), Res.ok_bind]
              rfl
            · rw [hp, hlen]
              exact Nat.mul_lt_mul_of_pos_left (h2 k (by omega)) (by omega)
        unfold openFileHeaderWhile at hl
        rw [this fuel 0 (by omega)] at hl
        cases hl
    rw [C100_articles_exact c _ len hlen N h2 h1 fuel hfuel] at hl
    have hl := Res.ok.inj hl
    have hll : l.length = N := by rw [← hl]; simp
    have hNeq : len N = N := by
      rcases Nat.eq_zero_or_pos N with h0 | h0
      · omega
      · have k1 := h2 (N - 1) (by omega)
        have k2 := (hpre _ _ (hmono (N - 1) N (by omega))).length_le
        simp only [len] at k1 h1 ⊢
        omega
    rw [hll, htl, openFileHeader_flatten c (hszt _), ← hl]
    congr 1
    apply List.ext_getElem
    · simp only [List.length_map, List.length_range]
      exact hNeq
    · intro i h3 h4
      have hi : i < N := by simpa using h4
      have hpp := hpre _ _ (hmono i N (by omega))
      simp only [List.getElem_map, List.getElem_range, htl]
      have hslot := slot_flatten (hszt (tm i)) [] i (h2 i hi)
      rw [List.append_nil] at hslot
      rw [hslot, hpp.getElem]
  · exfalso
    have := C100_chased c _ len hlen (fun i => Nat.lt_of_not_le (fun h => hN ⟨i, h⟩)) fuel
    rw [this] at hl
    cases hl

/-- Two callers push two articles one after the other. -/
def Spec.twoPushes : List RecAct := [.read 0, .write 0, .read 1, .write 1]

theorem twoPushes_take (m : Nat) : twoPushes.take m = [] ∧ m < 2 ∨ twoPushes.take m = [.read 0] ∧ m < 2 ∨
    twoPushes.take m = [.read 0, .write 0] ∧ ¬ m < 2 ∧ m < 4 ∨ twoPushes.take m = [.read 0, .write 0, .read 1] ∧ ¬ m < 2 ∧ m < 4 ∨
    twoPushes.take m = [.read 0, .write 0, .read 1, .write 1] ∧ ¬ m < 2 ∧ ¬ m < 4 := by
  match m with
  | 0 | 1 | 2 | 3 => simp [twoPushes]
  | m + 4 => simp [twoPushes]

theorem twoPushes_tally (m : Nat) :
    (Tally.run (fun _ => 1) ⟨-7, fun _ => none⟩ ((twoPushes.take m).filter (onRecord (fun p => UInt64.ofNat (p % 2)) 0))).count =
      (if m < 2 then -7 else -6) ∧
    (Tally.run (fun _ => 1) ⟨-7, fun _ => none⟩ ((twoPushes.take m).filter (onRecord (fun p => UInt64.ofNat (p % 2)) 1))).count =
      (if m < 4 then -7 else -6) ∧ appended (twoPushes.take m) = [] := by
  rcases twoPushes_take m with ⟨e, h⟩ | ⟨e, h⟩ | ⟨e, h, h2⟩ | ⟨e, h, h2⟩ | ⟨e, h, h2⟩ <;> rw [e]
  · rw [if_pos h, if_pos (by omega)]; decide
  · rw [if_pos h, if_pos (by omega)]; decide
  · rw [if_neg h, if_pos h2]; decide
  · rw [if_neg h, if_pos h2]; decide
  · rw [if_neg h, if_neg h2]; decide

theorem twoPushes_counts (c : Codec) (m : Nat) : ∃ rs', timeline c (fun p => UInt64.ofNat (p % 2)) (fun _ => 1)
      [sampleArticle.marshal c, sampleArticle.marshal c].flatten twoPushes m = rs'.flatten ∧ Sized 128 rs' ∧ rs'.length = 2 ∧
    rs'[0]?.map (fun r => (FileHeader.parse c r).recommend) = some (if m < 2 then -7 else -6) ∧
    rs'[1]?.map (fun r => (FileHeader.parse c r).recommend) = some (if m < 4 then -7 else -6) := by
  have hsz : Sized 128 [sampleArticle.marshal c, sampleArticle.marshal c] := by simp [Sized, FileHeader.marshal_length]
  have hix : ∀ p : Nat, (UInt64.ofNat (p % 2)).toNat < 2 ^ 56 := by
    intro p
    rw [UInt64.toNat_ofNat']
    omega
  have hwa : WholeAppends (twoPushes.take m) := by
    intro bs hb
    have := List.mem_of_mem_take hb
    simp [twoPushes] at this
  have hrec : (FileHeader.parse c (sampleArticle.marshal c)).recommend = -7 := by
    rw [FileHeader.parse_marshal_exact]; rfl
  obtain ⟨t0, t1, happ⟩ := twoPushes_tally m
  obtain ⟨rs', h1, h2, h3, _, h5⟩ := C99_recommend_exact c _ hsz _ hix (fun _ => 1) (twoPushes.take m) hwa 0 (by simp)
  obtain ⟨rs2, k1, k2, _, _, k5⟩ := C99_recommend_exact c _ hsz _ hix (fun _ => 1) (twoPushes.take m) hwa 1 (by simp)
  have e : rs2 = rs' := by
    rw [← slots_flatten (size := 128) (by omega) k2, ← slots_flatten (size := 128) (by omega) h2, ← k1, ← h1]
  subst e
  refine ⟨rs2, h1, h2, by rw [h3, happ]; rfl, ?_, ?_⟩
  · rw [h5, ← t0]
    simp only [List.getElem_cons_zero, hrec]
  · rw [k5, ← t1]
    simp only [List.getElem_cons_zero, List.getElem_cons_succ, hrec]

/-- **C100, refuted** for every codec: the reader takes the first article before both pushes and the second after both, a list that never
existed. -/
theorem C100_snapshot_refuted (c : Codec) : ¬ Spec.ReadsSnapshot c := by
  intro h
  have hsz : Sized 128 [sampleArticle.marshal c, sampleArticle.marshal c] := by simp [Sized, FileHeader.marshal_length]
  have hix : ∀ p : Nat, (UInt64.ofNat (p % 2)).toNat < 2 ^ 56 := by
    intro p
    rw [UInt64.toNat_ofNat']
    omega
  let tm : Nat → Nat := fun k => if k = 0 then 0 else 4
  have hlen : ∀ i, (timeline c (fun p => UInt64.ofNat (p % 2)) (fun _ => 1) [sampleArticle.marshal c, sampleArticle.marshal c].flatten
      twoPushes (tm i)).length = 128 * 2 := by
    intro i
    obtain ⟨rs', e1, e2, e3, _, _⟩ := twoPushes_counts c (tm i)
    rw [e1, e2.flatten_length, e3]
  have hres := C100_articles_exact c _ (fun _ => 2) hlen 2 (by omega) (by omega) 3 (by omega)
  obtain ⟨m, hm⟩ := h _ _ _ hsz hix twoPushes (by intro bs hb; simp [twoPushes] at hb) tm
    (by intro k; simp only [tm]; split <;> split <;> omega) 3 _ hres
  obtain ⟨rs', e1, e2, e3, e4, e5⟩ := twoPushes_counts c m
  obtain ⟨ra, a1, a2, a3, a4, _⟩ := twoPushes_counts c (tm 0)
  obtain ⟨rb, b1, b2, b3, _, b5⟩ := twoPushes_counts c (tm 1)
  rw [e1, openFileHeader_flatten c e2] at hm
  have hl := Res.ok.inj hm
  have g0 := congrArg (fun l => l[0]?.map FileHeader.recommend) hl
  have g1 := congrArg (fun l => l[1]?.map FileHeader.recommend) hl
  have sa := slot_flatten a2 [] 0 (by omega)
  have sb := slot_flatten b2 [] 1 (by omega)
  rw [List.append_nil] at sa sb
  have ra0 : ra[0]? = some (ra[0]'(by omega)) := List.getElem?_eq_getElem _
  have rb1 : rb[1]? = some (rb[1]'(by omega)) := List.getElem?_eq_getElem _
  rw [ra0, Option.map_some] at a4
  rw [rb1, Option.map_some] at b5
  have r2 : List.range 2 = [0, 1] := rfl
  simp only [r2, List.getElem?_map, Option.map_map, Function.comp_def, e4, e5, a1, b1, sa, sb, List.getElem?_cons_zero,
    List.getElem?_cons_succ, Option.map_some] at g0 g1
  rw [a4] at g0
  rw [b5] at g1
  by_cases h2 : m < 2
  · rw [if_pos (by omega)] at g1
    revert g1
    decide
  · rw [if_neg h2] at g0
    revert g0
    decide

/-! ## Reading the board list during a removal -/

/-- The content of the board list after each call of a removal. -/
def Spec.rmTimeline (s0 : RmState) (acts : List RmAct) (m : Nat) : Bytes :=
  match s0.run (acts.take m) with
  | some s => s.file
  | none => s0.file

/-- The claim: a list read while a board is being removed has all the other boards. -/
def Spec.OthersListed (c : Codec) : Prop :=
  ∀ (rs : List Bytes), Sized 256 rs → rs.length ≤ 2 ^ 54 → ∀ (index : Int64), 0 ≤ index.toInt → index.toInt < rs.length →
    ∀ s0, removeStart (some rs.flatten) index = .ok s0 → ∀ acts s, Alone acts → s0.run acts = some s →
    ∀ tm : Nat → Nat, (∀ k, tm k ≤ tm (k + 1)) → ∀ fuel l, openBoardHeaderWhile c (fun k => rmTimeline s0 acts (tm k)) fuel = .ok l →
      ∀ m (hm : m < rs.length), m ≠ index.toInt.toNat → BoardHeader.parse c rs[m] ∈ l

def Spec.groupBoard (n : Nat) : BoardHeader := { BoardHeader.zero with gid := .ofNat n }

/-- **C100, refuted** (removal) for every codec: the reader takes the first board before the removal and the rest after it; the board that
moved into the first slot is not in the list. -/
theorem C100_removal_refuted (c : Codec) : ¬ Spec.OthersListed c := by
  intro h
  have hgid : ∀ n, ∃ b : Bytes, b.length = 256 ∧ (BoardHeader.parse c b).gid = .ofNat n := by
    intro n
    refine ⟨(groupBoard n).marshal c, BoardHeader.marshal_length _ _, ?_⟩
    rw [BoardHeader.parse_marshal_exact]
    rfl
  obtain ⟨A, a1, a2⟩ := hgid 1
  obtain ⟨B, b1, b2⟩ := hgid 2
  obtain ⟨C, c1, c2⟩ := hgid 3
  have hsz : Sized 256 [A, B, C] := by simp [Sized, a1, b1, c1]
  have hfl := hsz.flatten_length
  obtain ⟨s0, e0, e1, hall⟩ := C12_remove_exact [A, B, C].flatten 3 hfl (by decide) 0 (by decide) (by decide)
  obtain ⟨_, ⟨acts, s, g1, g2, g3⟩, _⟩ := hall [] s0 (by simp [Alone]) rfl
  obtain ⟨hd, _, _⟩ := hall acts s g1 g2
  obtain ⟨k1, k2⟩ := hd g3
  rw [slots_flatten (by omega) hsz] at k1
  obtain ⟨tm, htm⟩ : ∃ tm : Nat → Nat, tm = fun k => if k = 0 then 0 else acts.length := ⟨_, rfl⟩
  have t0 : rmTimeline s0 acts (tm 0) = [A, B, C].flatten := by rw [htm, ← e1]; rfl
  have t1 : ∀ k, rmTimeline s0 acts (tm (k + 1)) = s.file := by
    intro k
    simp only [rmTimeline, htm, Nat.succ_ne_zero, if_false, List.take_length, g2]
  have hlen : ∀ i, (rmTimeline s0 acts (tm i)).length = 256 * (if i = 0 then 3 else 2) := by
    intro i
    cases i with
    | zero => rw [t0, hfl]; rfl
    | succ i => rw [t1, k2]; simp
  have hres := C100_boards_exact c _ (fun i => if i = 0 then 3 else 2) hlen 2 (by intro i hi; split <;> omega) (by decide) 3 (by omega)
  have hin := h [A, B, C] hsz (by simp) 0 (by decide) (by simp) s0 e0 acts s g1 g2 tm
    (by intro k; simp only [htm]; split <;> split <;> omega) 3 _ hres 1 (by simp) (by decide)
  have r2 : List.range 2 = [0, 1] := rfl
  have s1 : slot 256 [A, B, C].flatten 0 = A := by
    have := slot_flatten hsz [] 0 (by simp)
    rw [List.append_nil] at this
    exact this
  have s2 : slot 256 s.file 1 = C := by
    have hz : (slots 256 s.file)[1]? = some C := by rw [k1]; rfl
    have hc2 : (s.file.length + 256 - 1) / 256 = 2 := by rw [k2]
    simp only [slots, List.getElem?_map, hc2, r2] at hz
    exact Option.some.inj hz
  rw [r2] at hin
  simp only [List.map_cons, List.map_nil, List.mem_cons, List.not_mem_nil, or_false, t0, t1 0, s1, s2, List.getElem_cons_succ,
    List.getElem_cons_zero] at hin
  rcases hin with e | e
  · have e := congrArg BoardHeader.gid e
    rw [b2, a2] at e
    revert e
    decide
  · have e := congrArg BoardHeader.gid e
    rw [b2, c2] at e
    revert e
    decide

/-- What slot `i` can hold during the removal of record `j`: before `j` the record itself, from `j` on the first bytes of the next record
and the rest of this one. -/
def Spec.MovingSlot (rs : List Bytes) (j i : Nat) (b : Bytes) : Prop :=
  (i < j → rs[i]? = some b) ∧
  (j ≤ i → ∃ m, m ≤ 256 ∧ (m = 0 ∨ i + 1 < rs.length) ∧ b = (rs.getD (i + 1) []).take m ++ (rs.getD i []).drop m)

theorem moving_slots (rs : List Bytes) (hsz : Sized 256 rs) (hn : rs.length ≤ 2 ^ 54) (index : Int64) (h0 : 0 ≤ index.toInt)
    (h1 : index.toInt < rs.length) (s0 : RmState) (hs0 : removeStart (some rs.flatten) index = .ok s0) (acts : List RmAct) (s : RmState)
    (ha : Alone acts) (hr : s0.run acts = some s) :
    ∃ rs', s.file = rs'.flatten ∧ Sized 256 rs' ∧ (rs'.length = rs.length ∨ rs'.length = rs.length - 1) ∧
      ∀ i b, rs'[i]? = some b → MovingSlot rs index.toInt.toNat i b := by
  obtain ⟨s0', e0, hall⟩ := C13_crash_exact rs hsz hn index h0 h1
  obtain rfl : s0' = s0 := Res.ok.inj (e0.symm.trans hs0)
  generalize hj : index.toInt.toNat = j at *
  have hjr : j < rs.length := by omega
  have hz : Sized 256 (rs.eraseIdx j) := fun x hx => hsz x (List.mem_of_mem_eraseIdx hx)
  have hel := List.length_eraseIdx_of_lt hjr
  have hget : ∀ i b, (rs.eraseIdx j)[i]? = some b → MovingSlot rs j i b := by
    intro i b hb
    refine ⟨fun hi => ?_, fun hi => ?_⟩
    · rw [List.getElem?_eraseIdx_of_lt hi] at hb
      exact hb
    · rw [List.getElem?_eraseIdx_of_ge hi] at hb
      obtain ⟨hi2, hb⟩ := List.getElem?_eq_some_iff.mp hb
      refine ⟨256, Nat.le_refl _, Or.inr hi2, ?_⟩
      rw [getD_lt _ _ hi2, getD_lt _ _ (by omega : i < rs.length), hb,
        List.take_of_length_le (by rw [← hb]; exact Nat.le_of_eq (hsz _ (List.getElem_mem _))),
        List.drop_eq_nil_of_le (Nat.le_of_eq (hsz _ (List.getElem_mem _))), List.append_nil]
  rcases hall acts s ha hr with hf | ⟨q, m, hq1, hq2, hm, hm2, hf⟩
  · exact ⟨_, hf, hz, Or.inr hel, hget⟩
  · have ht : ((rs.getD (q + 1) []).take m ++ (rs.getD q []).drop m).length = 256 := by
      have l1 : (rs.getD q []).length = 256 := by
        rw [getD_lt _ _ hq2]
        exact hsz _ (List.getElem_mem _)
      have l2 : ((rs.getD (q + 1) []).take m).length = m := by
        rcases hm2 with h5 | h5
        · simp [h5]
        · rw [getD_lt _ _ h5, List.length_take, hsz _ (List.getElem_mem _)]
          omega
      rw [List.length_append, l2, List.length_drop, l1]
      omega
    have hlt : ((rs.eraseIdx j).take q).length = q := by rw [List.length_take]; omega
    refine ⟨_, hf, (Sized.append (fun x hx => hz x (List.mem_of_mem_take hx)) (fun x hx => by simp at hx; rw [hx]; exact ht)).append
        (fun x hx => hsz x (List.mem_of_mem_drop hx)), Or.inl ?_, ?_⟩
    · simp only [List.length_append, hlt, List.length_cons, List.length_nil, List.length_drop]
      omega
    · intro i b hb
      rcases Nat.lt_trichotomy i q with h | h | h
      · rw [List.append_assoc, List.getElem?_append_left (by omega), List.getElem?_take_of_lt h] at hb
        exact hget i b hb
      · subst h
        rw [List.append_assoc, List.getElem?_append_right (by omega), hlt, Nat.sub_self] at hb
        have hb : _ = b := Option.some.inj hb
        refine ⟨fun hi => by omega, fun _ => ⟨m, by omega, hm2, hb.symm⟩⟩
      · have hl2 : ((rs.eraseIdx j).take q ++ [(rs.getD (q + 1) []).take m ++ (rs.getD q []).drop m]).length = q + 1 := by
          rw [List.length_append, hlt]; rfl
        rw [List.getElem?_append_right (by omega), hl2, List.getElem?_drop, show q + 1 + (i - (q + 1)) = i by omega] at hb
        refine ⟨fun hi => by omega, fun _ => ⟨0, by omega, Or.inl rfl, ?_⟩⟩
        obtain ⟨hi2, hb⟩ := List.getElem?_eq_some_iff.mp hb
        rw [getD_lt _ _ hi2, hb]
        simp

/-- **C100, removal, exact.** A list read during the removal of board `index` has all the boards, or all but one; those before `index` are
right; and every further entry is read from a slot that holds the first bytes of the next board and the rest of its own. -/
theorem C100_removal_partial (c : Codec) (rs : List Bytes) (hsz : Sized 256 rs) (hn : rs.length ≤ 2 ^ 54) (index : Int64)
    (h0 : 0 ≤ index.toInt) (h1 : index.toInt < rs.length) (s0 : RmState) (hs0 : removeStart (some rs.flatten) index = .ok s0)
    (hist : Nat → Bytes) (hh : ∀ k, ∃ acts s, Alone acts ∧ s0.run acts = some s ∧ hist k = s.file) (fuel : Nat)
    (hf : rs.length < fuel) :
    ∃ (l : List BoardHeader) (bs : List Bytes), openBoardHeaderWhile c hist fuel = .ok l ∧ l = bs.map (BoardHeader.parse c) ∧
      (l.length = rs.length ∨ l.length = rs.length - 1) ∧
      ∀ i b, bs[i]? = some b → MovingSlot rs index.toInt.toNat i b := by
  have hch : ∀ k, ∃ rs', hist k = rs'.flatten ∧ Sized 256 rs' ∧ (rs'.length = rs.length ∨ rs'.length = rs.length - 1) ∧
      ∀ i b, rs'[i]? = some b → MovingSlot rs index.toInt.toNat i b := by
    intro k
    obtain ⟨acts, s, g1, g2, g3⟩ := hh k
    rw [g3]
    exact moving_slots rs hsz hn index h0 h1 s0 hs0 acts s g1 g2
  let R : Nat → List Bytes := fun k => Classical.choose (hch k)
  have hR : ∀ k, hist k = (R k).flatten ∧ Sized 256 (R k) ∧ ((R k).length = rs.length ∨ (R k).length = rs.length - 1) ∧
      ∀ i b, (R k)[i]? = some b → MovingSlot rs index.toInt.toNat i b := fun k => Classical.choose_spec (hch k)
  have hlen : ∀ i, (hist i).length = 256 * (R i).length := by
    intro i
    rw [(hR i).1, (hR i).2.1.flatten_length]
  have hpos : 0 < rs.length := by omega
  -- the number of entries
  have hN : ∃ N, (N = rs.length ∨ N = rs.length - 1) ∧ (∀ i, i < N → i < (R i).length) ∧ (R N).length ≤ N := by
    by_cases hk : (R (rs.length - 1)).length ≤ rs.length - 1
    · refine ⟨rs.length - 1, Or.inr rfl, fun i hi => ?_, hk⟩
      rcases (hR i).2.2.1 with e | e <;> omega
    · refine ⟨rs.length, Or.inl rfl, fun i hi => ?_, ?_⟩
      · by_cases hi2 : i = rs.length - 1
        · subst hi2; omega
        · rcases (hR i).2.2.1 with e | e <;> omega
      · rcases (hR rs.length).2.2.1 with e | e <;> omega
  obtain ⟨N, n1, n2, n3⟩ := hN
  refine ⟨_, (List.range N).map (fun i => slot 256 (hist i) i), C100_boards_exact c hist (fun i => (R i).length) hlen N n2 n3 fuel
    (by omega), ?_, ?_, ?_⟩
  · simp [Function.comp_def]
  · simpa using n1
  · intro i b hb
    rw [List.getElem?_map] at hb
    by_cases hi : i < N
    · rw [List.getElem?_range hi, Option.map_some] at hb
      have hb := Option.some.inj hb
      have hsl := slot_flatten (hR i).2.1 [] i (n2 i hi)
      rw [List.append_nil, ← (hR i).1] at hsl
      refine (hR i).2.2.2 i b ?_
      rw [← hb, hsl, List.getElem?_eq_getElem]
    · rw [List.getElem?_eq_none (by simp; omega)] at hb
      simp at hb

/-! ## Torn appends -/

/-- **C100, a record written in two pieces.** If the reader meets a record of which only the first bytes are there, it takes them for a whole
record, and the rest of the record for another: all the positions after it are wrong. -/
theorem C100_torn_append (c : Codec) (rs : List Bytes) (hsz : Sized 128 rs) (r1 r2 : Bytes) (h1 : 0 < r1.length) (h2 : 0 < r2.length)
    (hr : r1.length + r2.length = 128) (hist : Nat → Bytes) (hb : ∀ k, k ≤ rs.length → hist k = rs.flatten ++ r1)
    (ha : ∀ k, rs.length < k → hist k = rs.flatten ++ (r1 ++ r2)) (fuel : Nat) (hf : rs.length + 2 < fuel) :
    openFileHeaderWhile c hist fuel =
      .ok (rs.map (FileHeader.parse c) ++ [FileHeader.parse c (padTo 128 r1), FileHeader.parse c (padTo 128 r2)]) := by
  have hfl := hsz.flatten_length
  have hl1 : ∀ k, k ≤ rs.length → (hist k).length = 128 * rs.length + r1.length := by
    intro k hk; rw [hb k hk, List.length_append, hfl]
  have hl2 : ∀ k, rs.length < k → (hist k).length = 128 * rs.length + 128 := by
    intro k hk; rw [ha k hk, List.length_append, hfl, List.length_append, hr]
  have p1 : ∀ k, k ≤ rs.length → readPos 128 hist k = 128 * k := by
    intro k
    induction k with
    | zero => intro _; rfl
    | succ k ih =>
      intro hk
      rw [readPos, ih (by omega), hl1 k (by omega)]
      omega
  have p2 : readPos 128 hist (rs.length + 1) = 128 * rs.length + r1.length := by
    rw [readPos, p1 _ (Nat.le_refl _), hl1 _ (Nat.le_refl _)]
    omega
  have p3 : readPos 128 hist (rs.length + 2) = 128 * rs.length + 128 := by
    rw [readPos, p2, hl2 _ (by omega)]
    omega
  have := readLoop_hist (FileHeader.unmarshal_eq c) hist (rs.length + 2) fuel 0 (by omega) (by omega) (by
    intro i _ hi
    by_cases hle : i ≤ rs.length
    · rw [p1 i hle, hl1 i hle]; omega
    · obtain rfl : i = rs.length + 1 := by omega
      rw [p2, hl2 _ (by omega)]; omega) (by rw [p3, hl2 _ (by omega)]; exact Nat.le_refl _)
  unfold openFileHeaderWhile
  rw [this]
  congr 1
  rw [Nat.sub_zero, ← List.range_eq_range', List.range_succ, List.range_succ]
  simp only [List.map_append, List.map_cons, List.map_nil, List.append_assoc, List.cons_append, List.nil_append]
  congr 1
  · apply List.ext_getElem
    · simp
    · intro i g1 g2
      have hi : i < rs.length := by simpa using g2
      simp only [List.getElem_map, List.getElem_range]
      rw [p1 i (by omega), hb i (by omega), slice_flatten hsz _ i hi, padTo_eq_of_length (hsz _ (List.getElem_mem hi))]
  · have e1 : slice (rs.flatten ++ r1) (128 * rs.length) (128 * rs.length + 128) = r1 := by
      unfold slice
      rw [← hfl, List.take_length_add_append, List.drop_left, List.take_of_length_le (by omega)]
    have e2 : slice (rs.flatten ++ (r1 ++ r2)) (128 * rs.length + r1.length) (128 * rs.length + r1.length + 128) = r2 := by
      have : rs.flatten ++ (r1 ++ r2) = (rs.flatten ++ r1) ++ r2 := by simp
      have hl : (rs.flatten ++ r1).length = 128 * rs.length + r1.length := by rw [List.length_append, hfl]
      unfold slice
      rw [this, ← hl, List.take_length_add_append, List.drop_left, List.take_of_length_le (by omega)]
    rw [p1 _ (Nat.le_refl _), hb _ (Nat.le_refl _), e1, p2, ha _ (by omega), e2]

/-! ## Non-vacuity -/

/-- A list that grows from one record to two while it is read. -/
example : let hist : Nat → Bytes := fun k => if k = 0 then zeros 128 else zeros 256
    (∀ i, (hist i).length = 128 * (if i = 0 then 1 else 2)) ∧ (∀ i, i < 2 → i < (if i = 0 then 1 else 2)) ∧ (if (2 : Nat) = 0 then 1 else 2) ≤ 2 := by
  refine ⟨fun i => ?_, ?_, by decide⟩
  · simp only []
    split <;> simp
  · intro i hi; split <;> omega

/-- A removal under way, as the hypotheses of `C100_removal_partial` want it: at every read nothing has happened yet. -/
example : ∃ s0, removeStart (some [zeros 256, zeros 256].flatten) 0 = .ok s0 ∧
    ∀ _k : Nat, ∃ acts s, Alone acts ∧ s0.run acts = some s ∧ [zeros 256, zeros 256].flatten = s.file :=
  ⟨_, removeStart_small _ 0 (by decide) (by decide), fun _ => ⟨[], _, by simp [Alone], rfl, rfl⟩⟩

/-- A record of which 100 bytes are there. -/
example : 0 < (zeros 100).length ∧ 0 < (zeros 28).length ∧ (zeros 100).length + (zeros 28).length = 128 := by simp

end Verif
