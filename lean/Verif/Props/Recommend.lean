import Verif.Model.Interleave
import Verif.Props.RecordFiles
/-!
# C99: several callers change the recommendation count of articles
-/

namespace Verif

/-! ## Specification -/

namespace Spec

/-- A shared count, and the value each caller last looked at. -/
structure Tally where
  count : Int8
  seen : Nat → Option Int8

/-- Looking at the count; storing the value looked at plus the own amount; anything else changes nothing. -/
def Tally.step (u : Nat → Int8) (t : Tally) : RecAct → Tally
  | .read p => { t with seen := fun q => if q = p then some t.count else t.seen q }
  | .write p => match t.seen p with
    | none => t
    | some v => { t with count := v + u p }
  | .append _ => t

def Tally.run (u : Nat → Int8) (t : Tally) (acts : List RecAct) : Tally := acts.foldl (Tally.step u) t

/-- The call works on record `j`. -/
def onRecord (ix : Nat → UInt64) (j : Nat) : RecAct → Bool
  | .read p => (ix p).toNat == j
  | .write p => (ix p).toNat == j
  | .append _ => false

/-- Every appended record has the size of a record. -/
def WholeAppends (acts : List RecAct) : Prop := ∀ bs, RecAct.append bs ∈ acts → bs.length = 128

/-- The records appended. -/
def appended (acts : List RecAct) : List Bytes := acts.filterMap fun
  | .append bs => some bs
  | _ => none

/-- The callers that write, in order. -/
def writers (acts : List RecAct) : List Nat := acts.filterMap fun
  | .write p => some p
  | _ => none

/-- The callers that read, in order. -/
def readers (acts : List RecAct) : List Nat := acts.filterMap fun
  | .read p => some p
  | _ => none

/-- Each caller of `ps` reads once and later writes once, and nobody else does anything. -/
def EachOnce (acts : List RecAct) (ps : List Nat) : Prop :=
  ps.Nodup ∧ (readers acts).Perm ps ∧ (writers acts).Perm ps ∧
    ∀ p ∈ ps, ∃ a b, acts = a ++ b ∧ RecAct.read p ∈ a ∧ RecAct.write p ∈ b

/-- The sum of the amounts of some callers (`int8` arithmetic). -/
def total (u : Nat → Int8) (ps : List Nat) : Int8 := (ps.map u).sum

end Spec

open Spec

def RecState.init (d : Bytes) : RecState := ⟨d, fun _ => none⟩

/-! ## The file machine does what the shared count does -/

structure RecInv (c : Codec) (ix : Nat → UInt64) (j n : Nat) (s : RecState) (rs : List Bytes) (t : Tally) : Prop where
  file : s.file = rs.flatten
  sized : Sized 128 rs
  len : n ≤ rs.length
  known : ∀ p h, s.seen p = some h → (ix p).toNat < rs.length
  count : rs[j]?.map (fun r => (FileHeader.parse c r).recommend) = some t.count
  seen : ∀ p, (ix p).toNat = j → (s.seen p).map FileHeader.recommend = t.seen p

theorem openFileHeader_flatten (c : Codec) {rs : List Bytes} (h : Sized 128 rs) :
    openFileHeaderFile c (some rs.flatten) = .ok (rs.map (FileHeader.parse c)) := by
  unfold openFileHeaderFile
  rw [readFile_slots (by omega) (FileHeader.unmarshal_eq c), slots_flatten (by omega) h]

theorem update_flatten (c : Codec) {rs : List Bytes} (h : Sized 128 rs) (i : UInt64) (hi : i.toNat < rs.length)
    (hx : i.toNat < 2 ^ 56) (r : FileHeader) :
    updateFileHeader c (some rs.flatten) i r = .ok (rs.set i.toNat (r.marshal c)).flatten := by
  unfold updateFileHeader
  rw [updateRecord_small _ _ hx, writeAt_record h hi (r.marshal_length c)]

theorem sized_set {size : Nat} {rs : List Bytes} (h : Sized size rs) (i : Nat) {r : Bytes} (hr : r.length = size) :
    Sized size (rs.set i r) := by
  intro x hx
  rcases List.mem_or_eq_of_mem_set hx with hx | rfl
  · exact h x hx
  · exact hr

/-- One call keeps the invariant; the new records are described. -/
theorem RecInv.step {c : Codec} {ix : Nat → UInt64} (hix : ∀ p, (ix p).toNat < 2 ^ 56) {u : Nat → Int8} {j n : Nat} {s : RecState}
    {rs : List Bytes} {t : Tally} (hj : j < n) (h : RecInv c ix j n s rs t) (a : RecAct)
    (ha : ∀ bs, a = .append bs → bs.length = 128) :
    ∃ rs', RecInv c ix j n (s.step c ix u a) rs' (if onRecord ix j a then t.step u a else t) ∧
      ((∀ p, a = .write p → (ix p).toNat ≠ j) → rs'[j]? = rs[j]?) ∧
      rs'.length = rs.length + (appended [a]).length ∧
      (rs'[j]? = rs[j]? ∨ ∃ p f, a = .write p ∧ (ix p).toNat = j ∧ s.seen p = some f ∧
        rs'[j]? = some ((f.addRecommend (u p)).marshal c)) := by
  obtain ⟨hf, hsz, hlen, hk, hc, hs⟩ := h
  have hjr : j < rs.length := by omega
  cases a with
  | read p =>
    refine ⟨rs, ?_, fun _ => rfl, by simp [appended], Or.inl rfl⟩
    have e : s.step c ix u (.read p) =
        { s with seen := fun q => if q = p then (rs.map (FileHeader.parse c))[(ix p).toNat]? else s.seen q } := by
      simp only [RecState.step, hf, openFileHeader_flatten c hsz]
    rw [e]
    refine ⟨hf, hsz, hlen, ?_, ?_, ?_⟩
    · intro q f hq
      simp only at hq
      split at hq
      · rename_i hqp
        obtain ⟨hl, _⟩ := List.getElem?_eq_some_iff.mp hq
        rw [hqp]
        simpa using hl
      · exact hk q f hq
    · split <;> simpa [Tally.step] using hc
    · intro q hq
      have hq' := hs q hq
      by_cases hqp : q = p
      · subst hqp
        simp only [onRecord, hq, beq_self_eq_true, Tally.step, List.getElem?_map, if_true, Option.map_map]
        exact hc
      · by_cases hp : (ix p).toNat = j
        · simp [if_neg hqp, onRecord, hp, Tally.step, hq']
        · simp [if_neg hqp, onRecord, hp, hq']
  | write p =>
    cases hsp : s.seen p with
    | none =>
      have e : s.step c ix u (.write p) = s := by simp only [RecState.step, hsp]
      rw [e]
      refine ⟨rs, ?_, fun _ => rfl, by simp [appended], Or.inl rfl⟩
      have et : (if onRecord ix j (.write p) then t.step u (.write p) else t) = t := by
        by_cases hp : (ix p).toNat = j
        · have := hs p hp
          rw [hsp] at this
          simp only [Option.map_none] at this
          simp [onRecord, hp, Tally.step, ← this]
        · simp [onRecord, hp]
      rw [et]
      exact ⟨hf, hsz, hlen, hk, hc, hs⟩
    | some f =>
      have hip := hk p f hsp
      have hml := (f.addRecommend (u p)).marshal_length c
      have e : s.step c ix u (.write p) =
          { s with file := (rs.set (ix p).toNat ((f.addRecommend (u p)).marshal c)).flatten } := by
        simp only [RecState.step, hsp, hf, update_flatten c hsz (ix p) hip (hix p)]
      rw [e]
      refine ⟨rs.set (ix p).toNat ((f.addRecommend (u p)).marshal c), ⟨rfl, sized_set hsz _ hml, by simpa using hlen, ?_, ?_, ?_⟩,
        ?_, by simp [appended], ?_⟩
      · intro q g hq
        simpa using hk q g hq
      · by_cases hp : (ix p).toNat = j
        · have := hs p hp
          rw [hsp] at this
          simp only [Option.map_some] at this
          rw [← hp] at hjr ⊢
          simp only [List.getElem?_set_self hjr, Option.map_some, FileHeader.parse_marshal_exact, onRecord, beq_self_eq_true, if_true,
            Tally.step, ← this]
          rfl
        · rw [List.getElem?_set_ne hp]
          simpa [onRecord, hp] using hc
      · intro q hq
        rw [hs q hq]
        split
        · simp only [Tally.step]
          split <;> rfl
        · rfl
      · intro hne
        exact List.getElem?_set_ne (hne p rfl)
      · by_cases hp : (ix p).toNat = j
        · refine Or.inr ⟨p, f, rfl, hp, hsp, ?_⟩
          rw [hp, List.getElem?_set_self hjr]
        · exact Or.inl (List.getElem?_set_ne hp)
  | append bs =>
    have hb := ha bs rfl
    have e : s.step c ix u (.append bs) = { s with file := (rs ++ [bs]).flatten } := by
      simp [RecState.step, hf]
    rw [e]
    have hj2 : (rs ++ [bs])[j]? = rs[j]? := List.getElem?_append_left hjr
    refine ⟨rs ++ [bs], ⟨rfl, hsz.append (by simp [Sized, hb]), by simp; omega, ?_, ?_, ?_⟩, fun _ => hj2, by simp [appended], Or.inl hj2⟩
    · intro q g hq
      have := hk q g hq
      simp; omega
    · rw [hj2]; simpa [onRecord] using hc
    · simpa [onRecord] using hs

theorem appended_cons (a : RecAct) (acts : List RecAct) : (appended (a :: acts)).length = (appended [a]).length + (appended acts).length := by
  cases a <;> simp [appended, Nat.add_comm]

theorem RecInv.run {c : Codec} {ix : Nat → UInt64} (hix : ∀ p, (ix p).toNat < 2 ^ 56) {u : Nat → Int8} {j n : Nat} (hj : j < n)
    (acts : List RecAct) : ∀ {s : RecState} {rs : List Bytes} {t : Tally}, RecInv c ix j n s rs t → WholeAppends acts →
    ∃ rs', RecInv c ix j n (s.run c ix u acts) rs' (t.run u (acts.filter (onRecord ix j))) ∧
      ((∀ p, RecAct.write p ∈ acts → (ix p).toNat ≠ j) → rs'[j]? = rs[j]?) ∧
      rs'.length = rs.length + (appended acts).length := by
  induction acts with
  | nil => intro s rs t h _; exact ⟨rs, h, fun _ => rfl, by simp [appended]⟩
  | cons a acts ih =>
    intro s rs t h hw
    obtain ⟨rs1, h1, g1, l1, _⟩ := h.step hix (u := u) hj a (fun bs hb => hw bs (by simp [hb]))
    obtain ⟨rs2, h2, g2, l2⟩ := ih h1 (fun bs hb => hw bs (by simp [hb]))
    refine ⟨rs2, ?_, ?_, ?_⟩
    · have e : (if onRecord ix j a then t.step u a else t).run u (acts.filter (onRecord ix j)) =
          t.run u ((a :: acts).filter (onRecord ix j)) := by
        by_cases ho : onRecord ix j a = true
        · rw [if_pos ho, List.filter_cons_of_pos ho]; rfl
        · rw [if_neg ho, List.filter_cons_of_neg ho]
      rw [← e]
      exact h2
    · intro hne
      rw [g2 (fun p hp => hne p (by simp [hp])), g1 (fun p hp => hne p (by simp [hp]))]
    · rw [appended_cons, l2, l1]; omega

theorem RecInv.start (c : Codec) (ix : Nat → UInt64) {rs : List Bytes} (h : Sized 128 rs) {j : Nat} (hj : j < rs.length) :
    RecInv c ix j rs.length (RecState.init rs.flatten) rs ⟨(FileHeader.parse c rs[j]).recommend, fun _ => none⟩ :=
  ⟨rfl, h, Nat.le_refl _, by simp [RecState.init], by simp [hj], by simp [RecState.init]⟩

/-- **C99, exact.** Whatever the order of the calls, the list keeps its records and gains exactly the appended ones; a record nobody
writes keeps its bytes; and the count of record `j` is that of a shared count on which the callers working on `j` look and store,
whatever the others do. -/
theorem C99_recommend_exact (c : Codec) (rs : List Bytes) (hrs : Sized 128 rs) (ix : Nat → UInt64) (hix : ∀ p, (ix p).toNat < 2 ^ 56)
    (u : Nat → Int8) (acts : List RecAct) (hw : WholeAppends acts) (j : Nat) (hj : j < rs.length) :
    ∃ rs', ((RecState.init rs.flatten).run c ix u acts).file = rs'.flatten ∧ Sized 128 rs' ∧
      rs'.length = rs.length + (appended acts).length ∧
      ((∀ p, RecAct.write p ∈ acts → (ix p).toNat ≠ j) → rs'[j]? = rs[j]?) ∧
      rs'[j]?.map (fun r => (FileHeader.parse c r).recommend) =
        some (Tally.run u ⟨(FileHeader.parse c rs[j]).recommend, fun _ => none⟩ (acts.filter (onRecord ix j))).count := by
  obtain ⟨rs', h, g, l⟩ := (RecInv.start c ix hrs hj).run hix (u := u) hj acts hw
  exact ⟨rs', h.file, h.sized, l, g, h.count⟩

/-! ## What the shared count can become -/

theorem Tally.run_chain (u : Nat → Int8) (v : Int8) (acts : List RecAct) : ∀ (t : Tally) (W : List Nat),
    (∃ ch, ch.Sublist W ∧ t.count = v + total u ch ∧ (W ≠ [] → ch.getLast? = W.getLast?)) →
    (∀ p w, t.seen p = some w → ∃ ch, ch.Sublist W ∧ w = v + total u ch) →
    (∀ p a b, acts = a ++ RecAct.write p :: b → t.seen p ≠ none ∨ RecAct.read p ∈ a) →
    ∃ ch, ch.Sublist (W ++ writers acts) ∧ (t.run u acts).count = v + total u ch ∧
      (W ++ writers acts ≠ [] → ch.getLast? = (W ++ writers acts).getLast?) := by
  induction acts with
  | nil => intro t W h1 _ _; simpa [writers, Tally.run] using h1
  | cons a acts ih =>
    intro t W h1 h2 h4
    have hnext : ∀ (t' : Tally), (∀ p, t.seen p ≠ none → t'.seen p ≠ none) → (∀ p, a = .read p → t'.seen p ≠ none) →
        (∀ p x y, acts = x ++ RecAct.write p :: y → t'.seen p ≠ none ∨ RecAct.read p ∈ x) := by
      intro t' k1 k2 p x y hxy
      rcases h4 p (a :: x) y (by simp [hxy]) with h | h
      · exact Or.inl (k1 p h)
      · rcases List.mem_cons.mp h with h | h
        · exact Or.inl (k2 p h.symm)
        · exact Or.inr h
    cases a with
    | read p =>
      have hn := hnext (t.step u (.read p)) (by intro q hq; simp only [Tally.step]; split <;> simp_all)
        (by intro q hq; obtain rfl := RecAct.read.inj hq; simp [Tally.step])
      have := ih (t.step u (.read p)) W (by simpa [Tally.step] using h1) (by
        intro q w hq
        simp only [Tally.step] at hq
        split at hq
        · obtain ⟨ch, k1, k2, _⟩ := h1
          exact ⟨ch, k1, by rw [← k2]; exact (Option.some.inj hq).symm⟩
        · exact h2 q w hq) hn
      simpa [writers, Tally.run] using this
    | write p =>
      rcases h4 p [] acts rfl with h | h
      · obtain ⟨w, hw⟩ := Option.ne_none_iff_exists'.mp h
        obtain ⟨ch, k1, k2⟩ := h2 p w hw
        have es : t.step u (.write p) = { t with count := w + u p } := by simp [Tally.step, hw]
        have hn := hnext (t.step u (.write p)) (by intro q hq; rw [es]; exact hq) (by simp)
        have := ih (t.step u (.write p)) (W ++ [p])
          ⟨ch ++ [p], k1.append (List.Sublist.refl _), by simp [es, k2, total, Int8.add_assoc], by simp⟩
          (by
            intro q x hq
            rw [es] at hq
            obtain ⟨ch', l1, l2⟩ := h2 q x hq
            exact ⟨ch', l1.trans (List.sublist_append_left _ _), l2⟩) hn
        simpa [writers, Tally.run] using this
      · simp at h
    | append bs =>
      have hn := hnext (t.step u (.append bs)) (fun _ h => h) (by simp)
      have := ih (t.step u (.append bs)) W h1 h2 hn
      simpa [writers, Tally.run] using this

/-- Every write comes after a read of the same caller. -/
def Spec.ReadsFirst (acts : List RecAct) : Prop := ∀ p a b, acts = a ++ RecAct.write p :: b → RecAct.read p ∈ a

/-- **C99, what the count can be.** If every caller reads before it writes, the final count of record `j` is the old one plus the
amounts of some of the callers that wrote it, and the last one to write is always among them. -/
theorem C99_count_of_some (c : Codec) (rs : List Bytes) (hrs : Sized 128 rs) (ix : Nat → UInt64) (hix : ∀ p, (ix p).toNat < 2 ^ 56)
    (u : Nat → Int8) (acts : List RecAct) (hw : WholeAppends acts) (j : Nat) (hj : j < rs.length)
    (hr : ReadsFirst (acts.filter (onRecord ix j))) :
    ∃ rs' ch, ((RecState.init rs.flatten).run c ix u acts).file = rs'.flatten ∧ Sized 128 rs' ∧
      ch.Sublist (writers (acts.filter (onRecord ix j))) ∧
      (writers (acts.filter (onRecord ix j)) ≠ [] → ch.getLast? = (writers (acts.filter (onRecord ix j))).getLast?) ∧
      rs'[j]?.map (fun r => (FileHeader.parse c r).recommend) = some ((FileHeader.parse c rs[j]).recommend + total u ch) := by
  obtain ⟨rs', h1, h2, _, _, h5⟩ := C99_recommend_exact c rs hrs ix hix u acts hw j hj
  obtain ⟨ch, k1, k2, k3⟩ := Tally.run_chain u (FileHeader.parse c rs[j]).recommend (acts.filter (onRecord ix j))
    ⟨(FileHeader.parse c rs[j]).recommend, fun _ => none⟩ [] ⟨[], List.Sublist.refl _, by simp [total], by simp⟩ (by simp)
    (fun p a b hab => Or.inr (hr p a b hab))
  refine ⟨rs', ch, h1, h2, by simpa using k1, by simpa using k3, ?_⟩
  rw [h5, k2]

/-! ## Every such outcome happens -/

/-- Callers `q` of a round read and write while caller `p` has read and not yet written. -/
def Spec.round (N : List Nat) (p : Nat) : List RecAct :=
  .read p :: (N.flatMap (fun q => [.read q, .write q]) ++ [.write p])

theorem Tally.run_append (u : Nat → Int8) (t : Tally) (a b : List RecAct) : t.run u (a ++ b) = (t.run u a).run u b := by
  simp [Tally.run]

theorem Tally.run_others (u : Nat → Int8) (p : Nat) (N : List Nat) (hp : p ∉ N) : ∀ (t : Tally),
    (t.run u (N.flatMap (fun q => [.read q, .write q]))).seen p = t.seen p := by
  induction N with
  | nil => intro t; rfl
  | cons q N ih =>
    intro t
    have hq : p ≠ q := fun h => hp (by simp [h])
    rw [List.flatMap_cons, Tally.run_append, ih (fun h => hp (by simp [h]))]
    simp [Tally.run, Tally.step, hq]

theorem Tally.run_round (u : Nat → Int8) (t : Tally) (N : List Nat) (p : Nat) (hp : p ∉ N) :
    (t.run u (round N p)).count = t.count + u p := by
  have e : t.run u (round N p) = (((t.step u (.read p)).run u (N.flatMap (fun q => [.read q, .write q])))).step u (.write p) := by
    simp [round, Tally.run]
  rw [e]
  have h2 := Tally.run_others u p N hp (t.step u (.read p))
  have h3 : (t.step u (.read p)).seen p = some t.count := by simp [Tally.step]
  rw [h3] at h2
  simp [Tally.step] at h2 ⊢
  simp [h2]

theorem Tally.run_rounds (u : Nat → Int8) (bl : List (List Nat × Nat)) (hb : ∀ b ∈ bl, b.2 ∉ b.1) : ∀ (t : Tally),
    (t.run u (bl.flatMap (fun b => round b.1 b.2))).count = t.count + total u (bl.map (·.2)) := by
  induction bl with
  | nil => intro t; simp [Tally.run, total]
  | cons b bl ih =>
    intro t
    rw [List.flatMap_cons, Tally.run_append, ih (fun x hx => hb x (by simp [hx])), Tally.run_round u t b.1 b.2 (hb b (by simp))]
    simp [total, Int8.add_assoc]

theorem writers_append (a b : List RecAct) : writers (a ++ b) = writers a ++ writers b := by simp [writers]
theorem readers_append (a b : List RecAct) : readers (a ++ b) = readers a ++ readers b := by simp [readers]

theorem writers_pairs (N : List Nat) : writers (N.flatMap (fun q => [.read q, .write q])) = N := by
  induction N with
  | nil => rfl
  | cons q N ih => rw [List.flatMap_cons, writers_append, ih]; rfl

theorem readers_pairs (N : List Nat) : readers (N.flatMap (fun q => [.read q, .write q])) = N := by
  induction N with
  | nil => rfl
  | cons q N ih => rw [List.flatMap_cons, readers_append, ih]; rfl

theorem blocks_of_sublist (W : List Nat) : ∀ ch : List Nat, W.Nodup → W ≠ [] → ch.Sublist W → ch.getLast? = W.getLast? →
    ∃ bl : List (List Nat × Nat), W = bl.flatMap (fun b => b.1 ++ [b.2]) ∧ ch = bl.map (·.2) := by
  induction W with
  | nil => intro ch _ h; simp at h
  | cons w W ih =>
    intro ch hn _ hs hl
    by_cases hW : W = []
    · subst hW
      refine ⟨[([], w)], by simp, ?_⟩
      cases hs with
      | cons _ hs => simp at hs; subst hs; simp at hl
      | cons_cons _ hs => simp at hs; subst hs; rfl
    · have hlW : (w :: W).getLast? = W.getLast? := by
        cases W with
        | nil => simp at hW
        | cons x W => simp [List.getLast?_cons_cons]
      have hnW := (List.nodup_cons.mp hn)
      cases hs with
      | cons _ hs =>
        obtain ⟨bl, h1, h2⟩ := ih ch hnW.2 hW hs (by rw [hl, hlW])
        cases bl with
        | nil => simp at h1; exact absurd h1 hW
        | cons b bl => exact ⟨(w :: b.1, b.2) :: bl, by rw [h1]; simp, by rw [h2]; simp⟩
      | @cons_cons ch' _ _ hs =>
        rename_i ch'
        have hne : ch' ≠ [] := by
          rintro rfl
          rw [hlW] at hl
          simp only [List.getLast?_singleton] at hl
          exact hnW.1 (List.mem_of_getLast? hl.symm)
        have hl' : ch'.getLast? = W.getLast? := by
          rw [← hlW, ← hl]
          cases ch' with
          | nil => simp at hne
          | cons x y => simp [List.getLast?_cons_cons]
        obtain ⟨bl, h1, h2⟩ := ih ch' hnW.2 hW hs hl'
        exact ⟨([], w) :: bl, by rw [h1]; simp, by rw [h2]; simp⟩

/-- Caller `p` reads, and writes later. -/
def Spec.ReadThenWrite (acts : List RecAct) (p : Nat) : Prop := ∃ a b, acts = a ++ b ∧ RecAct.read p ∈ a ∧ RecAct.write p ∈ b

theorem readThenWrite_wrap {acts : List RecAct} {p : Nat} (h : ReadThenWrite acts p) (x y : List RecAct) :
    ReadThenWrite (x ++ (acts ++ y)) p := by
  obtain ⟨a, b, rfl, h1, h2⟩ := h
  exact ⟨x ++ a, b ++ y, by simp, by simp [h1], by simp [h2]⟩

theorem readThenWrite_pairs (N : List Nat) (p : Nat) (h : p ∈ N) : ReadThenWrite (N.flatMap (fun q => [.read q, .write q])) p := by
  obtain ⟨a, b, rfl⟩ := List.append_of_mem h
  rw [List.flatMap_append, List.flatMap_cons]
  exact readThenWrite_wrap (acts := [.read p, .write p]) ⟨[.read p], [.write p], rfl, by simp, by simp⟩ _ _

theorem readThenWrite_round (N : List Nat) (q p : Nat) (h : p ∈ N ++ [q]) : ReadThenWrite (round N q) p := by
  rcases List.mem_append.mp h with h | h
  · exact readThenWrite_wrap (readThenWrite_pairs N p h) [.read q] [.write q]
  · simp only [List.mem_singleton] at h
    subst h
    exact ⟨[.read p], _, rfl, by simp, by simp⟩

theorem writers_rounds (bl : List (List Nat × Nat)) :
    writers (bl.flatMap (fun b => round b.1 b.2)) = bl.flatMap (fun b => b.1 ++ [b.2]) := by
  induction bl with
  | nil => rfl
  | cons b bl ih =>
    rw [List.flatMap_cons, writers_append, ih, List.flatMap_cons]
    congr 1
    show writers ([.read b.2] ++ (_ ++ [.write b.2])) = _
    rw [writers_append, writers_append, writers_pairs]
    rfl

theorem readers_rounds (bl : List (List Nat × Nat)) :
    (readers (bl.flatMap (fun b => round b.1 b.2))).Perm (bl.flatMap (fun b => b.1 ++ [b.2])) := by
  induction bl with
  | nil => exact List.Perm.refl _
  | cons b bl ih =>
    rw [List.flatMap_cons, readers_append, List.flatMap_cons]
    refine List.Perm.append ?_ ih
    show (readers ([.read b.2] ++ (_ ++ [.write b.2]))).Perm _
    rw [readers_append, readers_append, readers_pairs]
    show (b.2 :: (b.1 ++ [])).Perm _
    rw [List.append_nil]
    exact (List.perm_append_comm (l₁ := [b.2]) (l₂ := b.1))

theorem rounds_on (ix : Nat → UInt64) (j : Nat) (bl : List (List Nat × Nat))
    (h : ∀ p ∈ bl.flatMap (fun b => b.1 ++ [b.2]), (ix p).toNat = j) :
    (bl.flatMap (fun b => round b.1 b.2)).filter (onRecord ix j) = bl.flatMap (fun b => round b.1 b.2) := by
  rw [List.filter_eq_self]
  intro a ha
  obtain ⟨b, hb, ha⟩ := List.mem_flatMap.mp ha
  have h1 : (ix b.2).toNat = j := h _ (List.mem_flatMap.mpr ⟨b, hb, by simp⟩)
  have h2 : ∀ q ∈ b.1, (ix q).toNat = j := fun q hq => h _ (List.mem_flatMap.mpr ⟨b, hb, by simp [hq]⟩)
  simp only [round, List.mem_cons, List.mem_append, List.mem_flatMap, List.not_mem_nil, or_false] at ha
  rcases ha with rfl | ⟨q, hq, rfl | rfl⟩ | rfl
  · simp [onRecord, h1]
  · simp [onRecord, h2 q hq]
  · simp [onRecord, h2 q hq]
  · simp [onRecord, h1]

theorem rounds_wholeAppends (bl : List (List Nat × Nat)) : WholeAppends (bl.flatMap (fun b => round b.1 b.2)) := by
  intro bs hb
  obtain ⟨b, _, hb⟩ := List.mem_flatMap.mp hb
  simp [round] at hb

/-- **C99, sharp.** Take any callers working on record `j`, each of them once. Every choice among them that includes the last writer is
the set of those counted in some schedule. -/
theorem C99_every_choice (c : Codec) (rs : List Bytes) (hrs : Sized 128 rs) (ix : Nat → UInt64) (hix : ∀ p, (ix p).toNat < 2 ^ 56)
    (u : Nat → Int8) (j : Nat) (hj : j < rs.length) (W ch : List Nat) (hW : W.Nodup) (hne : W ≠ []) (hon : ∀ p ∈ W, (ix p).toNat = j)
    (hs : ch.Sublist W) (hl : ch.getLast? = W.getLast?) :
    ∃ acts rs', EachOnce acts W ∧ writers acts = W ∧ appended acts = [] ∧
      ((RecState.init rs.flatten).run c ix u acts).file = rs'.flatten ∧ Sized 128 rs' ∧ rs'.length = rs.length ∧
      rs'[j]?.map (fun r => (FileHeader.parse c r).recommend) = some ((FileHeader.parse c rs[j]).recommend + total u ch) := by
  obtain ⟨bl, rfl, rfl⟩ := blocks_of_sublist W ch hW hne hs hl
  have hb : ∀ b ∈ bl, b.2 ∉ b.1 := by
    intro b hb hm
    obtain ⟨x, y, rfl⟩ := List.append_of_mem hb
    rw [List.flatMap_append, List.flatMap_cons] at hW
    have h1 := (List.nodup_append.mp (List.nodup_append.mp (List.nodup_append.mp hW).2.1).1).2.2
    exact h1 b.2 hm b.2 (by simp) rfl
  have hwa := rounds_wholeAppends bl
  obtain ⟨rs', h1, h2, h3, _, h5⟩ := C99_recommend_exact c rs hrs ix hix u _ hwa j hj
  have happ : appended (bl.flatMap (fun b => round b.1 b.2)) = [] := by
    cases h : appended (bl.flatMap (fun b => round b.1 b.2)) with
    | nil => rfl
    | cons bs l =>
      have hm : bs ∈ appended (bl.flatMap (fun b => round b.1 b.2)) := by simp [h]
      obtain ⟨a, ha, he⟩ := List.mem_filterMap.mp hm
      obtain ⟨b, _, ha⟩ := List.mem_flatMap.mp ha
      simp only [round, List.mem_cons, List.mem_append, List.mem_flatMap, List.not_mem_nil, or_false] at ha
      rcases ha with rfl | ⟨q, _, rfl | rfl⟩ | rfl <;> simp at he
  rw [happ] at h3
  refine ⟨_, rs', ⟨hW, readers_rounds bl, by rw [writers_rounds], ?_⟩, writers_rounds bl, happ, h1, h2, h3, ?_⟩
  · intro p hp
    obtain ⟨b, hb, hpb⟩ := List.mem_flatMap.mp hp
    obtain ⟨x, y, rfl⟩ := List.append_of_mem hb
    rw [List.flatMap_append, List.flatMap_cons]
    exact readThenWrite_wrap (readThenWrite_round b.1 b.2 p hpb) _ _
  · rw [h5, rounds_on ix j bl hon, Tally.run_rounds u bl hb]

/-! ## The claim -/

/-- The claim: when each of the callers `ps` reads record `j`, adds its amount and writes it back, all the amounts are counted. -/
def Spec.AllCounted (c : Codec) : Prop :=
  ∀ (rs : List Bytes), Sized 128 rs → ∀ (ix : Nat → UInt64), (∀ p, (ix p).toNat < 2 ^ 56) → ∀ (u : Nat → Int8) (j : Nat)
    (hj : j < rs.length) (acts : List RecAct) (ps : List Nat), EachOnce acts ps → (∀ p ∈ ps, (ix p).toNat = j) → appended acts = [] →
    ∀ rs', ((RecState.init rs.flatten).run c ix u acts).file = rs'.flatten → Sized 128 rs' →
      rs'[j]?.map (fun r => (FileHeader.parse c r).recommend) = some ((FileHeader.parse c rs[j]).recommend + total u ps)

/-- **C99, refuted** for every codec: two callers that push the same article; one push is lost. -/
theorem C99_recommend_refuted (c : Codec) : ¬ Spec.AllCounted c := by
  intro h
  have hsz : Sized 128 [sampleArticle.marshal c] := by simp [Sized, FileHeader.marshal_length]
  obtain ⟨acts, rs', h1, _, happ, h3, h4, _, h6⟩ := C99_every_choice c [sampleArticle.marshal c] hsz (fun _ => 0) (by simp)
    (fun _ => 1) 0 (by simp) [0, 1] [1] (by decide) (by simp) (by simp) (by decide) rfl
  have := h _ hsz (fun _ => 0) (by simp) (fun _ => 1) 0 (by simp) acts [0, 1] h1 (by simp) happ rs' h3 h4
  rw [h6] at this
  have e := Option.some.inj this
  have e2 := congrArg (fun x => x - (FileHeader.parse c [sampleArticle.marshal c][0]).recommend) e
  simp only [Int8.add_comm _ (total _ _), Int8.add_sub_cancel] at e2
  revert e2
  decide

theorem Tally.run_serial (u : Nat → Int8) (ps : List Nat) : ∀ (t : Tally),
    (t.run u (ps.flatMap (fun q => [.read q, .write q]))).count = t.count + total u ps := by
  induction ps with
  | nil => intro t; simp [Tally.run, total]
  | cons p ps ih =>
    intro t
    rw [List.flatMap_cons, Tally.run_append, ih]
    simp [Tally.run, Tally.step, total, Int8.add_assoc]

/-- **C99, partial**: all amounts are counted when the callers that work on the record take turns, whatever is done meanwhile to other
records. What is missing: callers that overlap, see `C99_recommend_refuted`. -/
theorem C99_recommend_partial (c : Codec) (rs : List Bytes) (hrs : Sized 128 rs) (ix : Nat → UInt64) (hix : ∀ p, (ix p).toNat < 2 ^ 56)
    (u : Nat → Int8) (acts : List RecAct) (hw : WholeAppends acts) (j : Nat) (hj : j < rs.length) (ps : List Nat)
    (hser : acts.filter (onRecord ix j) = ps.flatMap (fun q => [.read q, .write q])) :
    ∃ rs', ((RecState.init rs.flatten).run c ix u acts).file = rs'.flatten ∧ Sized 128 rs' ∧
      rs'[j]?.map (fun r => (FileHeader.parse c r).recommend) = some ((FileHeader.parse c rs[j]).recommend + total u ps) := by
  obtain ⟨rs', h1, h2, _, _, h5⟩ := C99_recommend_exact c rs hrs ix hix u acts hw j hj
  exact ⟨rs', h1, h2, by rw [h5, hser, Tally.run_serial]⟩

/-! ## The other fields -/

/-- **C99, the rest of the record.** If saving the record read from slot `j` keeps it as it is, then after any schedule slot `j` holds
that record with another count: nothing else is mixed or lost. -/
theorem C99_rest_kept (c : Codec) (rs : List Bytes) (hrs : Sized 128 rs) (ix : Nat → UInt64) (hix : ∀ p, (ix p).toNat < 2 ^ 56)
    (u : Nat → Int8) (acts : List RecAct) (hw : WholeAppends acts) (j : Nat) (hj : j < rs.length)
    (hst : storedArticle c (FileHeader.parse c rs[j]) = FileHeader.parse c rs[j]) :
    ∃ rs' v, ((RecState.init rs.flatten).run c ix u acts).file = rs'.flatten ∧ Sized 128 rs' ∧
      rs'[j]?.map (FileHeader.parse c) = some { FileHeader.parse c rs[j] with recommend := v } := by
  have hcomm : ∀ (f : FileHeader) (v : Int8), storedArticle c { f with recommend := v } = { storedArticle c f with recommend := v } :=
    fun _ _ => rfl
  generalize hf : FileHeader.parse c rs[j] = f at hst
  have key : ∀ (acts : List RecAct) (s : RecState) (rs1 : List Bytes) (t : Tally), RecInv c ix j rs.length s rs1 t → WholeAppends acts →
      (∃ v, rs1[j]?.map (FileHeader.parse c) = some { f with recommend := v }) →
      (∀ p g, (ix p).toNat = j → s.seen p = some g → ∃ v, g = { f with recommend := v }) →
      ∃ rs' v, (s.run c ix u acts).file = rs'.flatten ∧ Sized 128 rs' ∧
        rs'[j]?.map (FileHeader.parse c) = some { f with recommend := v } := by
    intro acts
    induction acts with
    | nil => intro s rs1 t h _ ⟨v, hv⟩ _; exact ⟨rs1, v, h.file, h.sized, hv⟩
    | cons a acts ih =>
      intro s rs1 t h hw ⟨v, hv⟩ hg
      obtain ⟨rs2, h2, _, _, hslot⟩ := h.step hix (u := u) hj a (fun bs hb => hw bs (by simp [hb]))
      refine ih _ rs2 _ h2 (fun bs hb => hw bs (by simp [hb])) ?_ ?_
      · rcases hslot with e | ⟨p, g, _, hp, hsp, e⟩
        · exact ⟨v, by rw [e, hv]⟩
        · obtain ⟨w, rfl⟩ := hg p g hp hsp
          refine ⟨w + u p, ?_⟩
          rw [e, Option.map_some, FileHeader.parse_marshal_exact]
          show some (storedArticle c { f with recommend := w + u p }) = _
          rw [hcomm, hst]
      · intro p g hp hs
        cases a with
        | read q =>
          simp only [RecState.step, h.file, openFileHeader_flatten c h.sized] at hs
          split at hs
          · rename_i e
            subst e
            rw [hp, List.getElem?_map, hv] at hs
            exact ⟨v, (Option.some.inj hs).symm⟩
          · exact hg p g hp hs
        | write q =>
          have e : (s.step c ix u (.write q)).seen = s.seen := by
            simp only [RecState.step]
            split
            · rfl
            · split <;> rfl
          rw [e] at hs
          exact hg p g hp hs
        | append bs => exact hg p g hp hs
  refine key acts _ rs _ (RecInv.start c ix hrs hj) hw ⟨f.recommend, ?_⟩ (by simp [RecState.init])
  simp [hj, hf]

/-! ## Non-vacuity -/

/-- Three callers on the first record of a list of two, an append in between; the first is lost. -/
example : let ix : Nat → UInt64 := fun _ => 0
    let acts : List RecAct := [.read 0, .read 1, .append (zeros 128), .write 0, .write 1, .read 2, .write 2]
    Sized 128 [sampleArticle.marshal asciiCodec, zeros 128] ∧ WholeAppends acts ∧ (∀ p, (ix p).toNat < 2 ^ 56) ∧
      Spec.writers (acts.filter (onRecord ix 0)) = [0, 1, 2] ∧
      (Tally.run (fun _ => 1) ⟨-7, fun _ => none⟩ (acts.filter (onRecord ix 0))).count = -5 := by
  refine ⟨by simp [Sized, FileHeader.marshal_length], ?_, by simp, by decide, by decide⟩
  intro bs hb
  simp at hb
  simp [hb]

/-- Every write comes after a read of the same caller. -/
example : Spec.ReadsFirst [.read 0, .read 1, .write 0, .write 1] := by
  intro p a b h
  match a with
  | [] => simp at h
  | [_] => simp at h
  | [_, _] => simp at h; simp [← h.1, ← h.2.1, h.2.2.1]
  | [_, _, _] => simp at h; simp [← h.1, ← h.2.1, h.2.2.2.1]
  | _ :: _ :: _ :: _ :: l => simp at h

/-- Two callers on different records; the first record is served in turns. -/
example : let ix : Nat → UInt64 := fun p => if p = 9 then 1 else 0
    ([.read 4, .read 9, .write 4, .read 5, .write 9, .write 5] : List RecAct).filter (onRecord ix 0) =
      ([4, 5] : List Nat).flatMap (fun q => [.read q, .write q]) := by decide

/-- A record that saving keeps as it is. -/
example : storedArticle asciiCodec sampleArticle = sampleArticle := by decide +kernel

end Verif
