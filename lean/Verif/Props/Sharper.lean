import Verif.Props.Factory
import Verif.Props.CacheOpen
import Verif.Proofs.Progress
/-!
# Sharper forms of C70 and C92
-/

namespace Verif
open Spec

/-! ## C70 -/

/-- **C70, exactly.** After a board has been added, drawing a name for an article in it ends iff the directory of the board was there before the board
was added and one of the names that will be drawn was free then: adding the board changes nothing about it. -/
theorem C70_exact (db : DB) (c : Codec) (fs fs' : FS) (r : BoardHeader) (hb : r.brdName ≠ []) (h : db.addBoardRecord c fs r = .ok fs')
    (draw : Nat → Int × Fin 4096) :
    (∃ fuel, (db.createFilename fs' r.brdName draw fuel 0).Returns) ↔ IsDir fs db.cwd (boardDir db.home r.brdName) ∧
      ∃ k, db.readBoardArticleFile fs r.brdName (DB.articleName (draw k).1 (draw k).2) = .err "no such file or directory" := by
  rw [C25_exact db fs' r.brdName hb draw]
  have hadd := h
  unfold DB.addBoardRecord at h
  obtain ⟨q, hq, h⟩ := Res.bind_eq_ok.mp h
  cases hq
  unfold FS.appendCreate at h
  obtain ⟨⟨l, d⟩, ho, h⟩ := Res.bind_eq_ok.mp h
  have := Res.ok.inj h
  subst this
  obtain ⟨hlk, hnd, _⟩ := FS.openCreate_ok ho
  have hdirs := FS.set_file_dirs (d := d ++ r.marshal c) hnd
  have hlast : l.getLast? = some (ascii ".BRD") := by
    rw [FS.lookup_eq hlk]
    exact resolve_last db.cwd db.home (ascii ".BRD") (by decide) (by decide) (by decide) (by decide)
  have hiff : ∀ k, IsDir fs db.cwd (boardDir db.home r.brdName) →
      db.readBoardArticleFile (fs.set l (.file (d ++ r.marshal c))) r.brdName (DB.articleName (draw k).1 (draw k).2) =
        db.readBoardArticleFile fs r.brdName (DB.articleName (draw k).1 (draw k).2) := by
    rintro k ⟨L, hL, hg⟩
    obtain ⟨hc, h0⟩ := articleName_component (draw k).1 (draw k).2
    have h1 := FS.lookup_child hL hg hc h0
    have h2 := FS.lookup_mono hdirs h1
    simp only [DB.readBoardArticleFile, articlePath_ok hb, Res.ok_bind, FS.readFile_of h1, FS.readFile_of h2]
    have hne : L ++ [DB.articleName (draw k).1 (draw k).2] ≠ l := by
      intro e
      rw [← e, List.getLast?_concat] at hlast
      have := congrArg (fun b : Bytes => b.head?) (Option.some.inj hlast)
      exact absurd (show some (77 : UInt8) = some 46 from this) (by decide)
    rw [FS.get_set (FS.ne_root hnd), if_neg hne]
  constructor
  · rintro ⟨hd, k, hk⟩
    have hd' := addBoard_isDir hadd hd
    exact ⟨hd', k, by rw [← hiff k hd', hk]⟩
  · rintro ⟨hd, k, hk⟩
    obtain ⟨L, hL, hg⟩ := hd
    exact ⟨⟨L, FS.lookup_mono hdirs hL, hdirs L hg⟩, k, by rw [hiff k ⟨L, hL, hg⟩, hk]⟩

/-! ## C92 -/

/-- The bytes of an entry. -/
def Spec.entryBytes (m : Bytes) (start len : Nat) : Bytes := (List.range len).map fun k => m.getD (start + k) 0

theorem entryBytes_length (m : Bytes) (start len : Nat) : (entryBytes m start len).length = len := by simp [entryBytes]

theorem entryBytes_get {m : Bytes} {start len k : Nat} (h : k < len) : (entryBytes m start len)[k]? = some (m.getD (start + k) 0) := by
  simp [entryBytes, h]

/-- The id of an entry. -/
def Spec.idOf (m : Bytes) (start len : Nat) : Bytes := (entryBytes m start len).takeWhile (· != 0)

/-- **C92, one change.** The segment changes once, from `old` to `new`, at time `T`. What is read is, up to the length that the search for the NUL found,
the old entry in the bytes that were copied before the change and the new one in the others; and the search, too, saw the old entry before the
change and the new one from then on. -/
theorem C92_one_change (old new : Bytes) (T start len : Nat) :
    userIDLive (fun t => if t < T then old else new) start len =
      ((entryBytes old start len).take (T - len) ++ (entryBytes new start len).drop (T - len)).take
        (((entryBytes old start len).take T ++ (entryBytes new start len).drop T).takeWhile (· != 0)).length := by
  have mix : ∀ (S : Nat), (List.range len).map (fun k => (if k < S then old else new).getD (start + k) 0) =
      (entryBytes old start len).take S ++ (entryBytes new start len).drop S := by
    intro S
    apply List.ext_getElem?
    intro k
    by_cases hk : k < len
    · rw [List.getElem?_map, List.getElem?_range hk]
      by_cases hs : k < S
      · rw [List.getElem?_append_left (by simp [entryBytes_length]; omega), List.getElem?_take, if_pos hs, entryBytes_get hk]
        simp [hs]
      · rw [List.getElem?_append_right (by simp [entryBytes_length]; omega), List.getElem?_drop, List.length_take, entryBytes_length,
          show S + (k - min S len) = k by omega, entryBytes_get hk]
        simp [hs]
    · rw [List.getElem?_eq_none (by simp; omega), List.getElem?_eq_none (by simp [entryBytes_length]; omega)]
  unfold userIDLive
  simp only
  rw [mix T, ← mix (T - len), ← List.map_take, List.take_range]
  have hn := (List.takeWhile_prefix (fun x : UInt8 => x != 0) (l := (entryBytes old start len).take T ++ (entryBytes new start len).drop T)).length_le
  rw [← mix T, List.length_map, List.length_range] at hn
  rw [← mix T, Nat.min_eq_left hn]
  refine List.map_congr_left fun k _ => ?_
  by_cases e : len + k < T
  · rw [if_pos e, if_pos (by omega)]
  · rw [if_neg e, if_neg (by omega)]

theorem takeWhile_ne_length {l : Bytes} : ∀ {n : Nat}, n ≤ (l.takeWhile (· != 0)).length → l.take n = (l.takeWhile (· != 0)).take n := by
  intro n h
  obtain ⟨t, ht⟩ := List.takeWhile_prefix (fun x : UInt8 => x != 0) (l := l)
  conv => lhs; rw [← ht]
  exact List.take_append_of_le_length h

theorem takeWhile_append_all {a b : Bytes} (h : ∀ x ∈ a, (x != 0) = true) : (a ++ b).takeWhile (· != 0) = a ++ b.takeWhile (· != 0) := by
  induction a with
  | nil => rfl
  | cons x a ih =>
    rw [List.cons_append, List.takeWhile_cons, if_pos (h x (by simp)), ih fun y hy => h y (by simp [hy]), List.cons_append]

theorem take_takeWhile_self (l : Bytes) : l.take (l.takeWhile (· != 0)).length = l.takeWhile (· != 0) := by
  rw [takeWhile_ne_length (Nat.le_refl _), List.take_length]

theorem takeWhile_mem {l : Bytes} : ∀ x ∈ l.takeWhile (· != 0), (x != 0) = true := by
  induction l with
  | nil => simp
  | cons a l ih =>
    intro x hx
    rw [List.takeWhile_cons] at hx
    split at hx
    · rcases List.mem_cons.mp hx with rfl | hx
      · assumption
      · exact ih x hx
    · simp at hx

/-- The search that has passed the end of the old id before the change stops there, whatever comes after. -/
theorem takeWhile_old {a b : Bytes} {T : Nat} (h : (a.takeWhile (· != 0)).length < T) (hT : T ≤ a.length) :
    (a.take T ++ b).takeWhile (· != 0) = a.takeWhile (· != 0) := by
  induction a generalizing T with
  | nil => simp at hT; subst hT; simp at h
  | cons x a ih =>
    cases T with
    | zero => simp at h
    | succ T =>
      rw [List.take_succ_cons, List.cons_append, List.takeWhile_cons, List.takeWhile_cons]
      rw [List.takeWhile_cons] at h
      split
      · rename_i hx
        rw [if_pos hx] at h
        rw [ih (by simpa using h) (by simpa using hT)]
      · rfl

theorem idOf_le (m : Bytes) (start len : Nat) : (idOf m start len).length ≤ len := by
  have := (List.takeWhile_prefix (fun x : UInt8 => x != 0) (l := entryBytes m start len)).length_le
  rwa [entryBytes_length] at this

/-- **C92, the new id.** A change made before the search has reached the end of either id is seen whole. -/
theorem C92_new (old new : Bytes) (T start len : Nat) (ho : T ≤ (idOf old start len).length) (hn : T ≤ (idOf new start len).length) :
    userIDLive (fun t => if t < T then old else new) start len = idOf new start len := by
  have hT : T ≤ len := Nat.le_trans hn (idOf_le ..)
  rw [C92_one_change, show T - len = 0 by omega, List.take_zero, List.nil_append, List.drop_zero]
  have h1 : ((entryBytes old start len).take T ++ (entryBytes new start len).drop T).takeWhile (· != 0) =
      (entryBytes old start len).take T ++ ((entryBytes new start len).drop T).takeWhile (· != 0) := by
    refine takeWhile_append_all fun x hx => ?_
    rw [takeWhile_ne_length ho] at hx
    exact takeWhile_mem x (List.mem_of_mem_take hx)
  have h2 : idOf new start len = (entryBytes new start len).take T ++ ((entryBytes new start len).drop T).takeWhile (· != 0) := by
    unfold idOf
    conv => lhs; rw [← List.take_append_drop T (entryBytes new start len)]
    refine takeWhile_append_all fun x hx => ?_
    rw [takeWhile_ne_length hn] at hx
    exact takeWhile_mem x (List.mem_of_mem_take hx)
  have h3 : (((entryBytes old start len).take T ++ (entryBytes new start len).drop T).takeWhile (· != 0)).length = (idOf new start len).length := by
    rw [h1, h2]; simp [entryBytes_length]
  rw [h3]
  exact take_takeWhile_self _

/-- **C92, the length of the old, the bytes of the new.** A change made after the search has found the end of the old id and before its bytes are
copied: what is read is the new entry cut, or filled with what stands behind its NUL, to the length of the old id. -/
theorem C92_between (old new : Bytes) (T start len : Nat) (ho : (idOf old start len).length < T) (hT : T ≤ len) :
    userIDLive (fun t => if t < T then old else new) start len = (entryBytes new start len).take (idOf old start len).length := by
  rw [C92_one_change, show T - len = 0 by omega, List.take_zero, List.nil_append, List.drop_zero,
    takeWhile_old ho (by rw [entryBytes_length]; exact hT)]
  rfl

/-- **C92, two halves.** A change made while the bytes are copied: those already copied are the old ones, the others the new ones. -/
theorem C92_halves (old new : Bytes) (T start len : Nat) (hT : len ≤ T) :
    userIDLive (fun t => if t < T then old else new) start len =
      (idOf old start len).take (T - len) ++ ((entryBytes new start len).take (idOf old start len).length).drop (T - len) := by
  rw [C92_one_change, List.take_of_length_le (i := T) (by rw [entryBytes_length]; exact hT),
    List.drop_of_length_le (i := T) (by rw [entryBytes_length]; exact hT), List.append_nil, List.take_append, List.take_take, List.length_take,
    entryBytes_length]
  have hle := idOf_le old start len
  have e1 : (entryBytes old start len).take (min (T - len) (idOf old start len).length) = (idOf old start len).take (T - len) := by
    rw [← List.take_take]
    exact congrArg (List.take (T - len)) (take_takeWhile_self (entryBytes old start len))
  have e2 : (idOf old start len).length - min (T - len) len = (idOf old start len).length - (T - len) := by omega
  rw [List.drop_take, ← e2, ← e1, Nat.min_comm]
  rfl

/-- **C92, the old id.** A change made when all bytes have been copied is not seen. -/
theorem C92_old (old new : Bytes) (T start len : Nat) (hT : len + (idOf old start len).length ≤ T) :
    userIDLive (fun t => if t < T then old else new) start len = idOf old start len := by
  rw [C92_halves old new T start len (by omega), List.take_of_length_le (by omega), List.drop_of_length_le (by rw [List.length_take]; omega),
    List.append_nil]

/-- The sample: the entry holds `abc`, then `xyz`; the change comes while the bytes are copied. -/
example : userIDLive (fun t => if t < 14 then ascii "abc" ++ zeros 10 else ascii "xyz" ++ zeros 10) 0 13 = ascii "ayz" := by
  decide +kernel

/-- `abc` becomes `xy` when the search has passed the third byte: the hypotheses of `C92_between` hold and a NUL is part of what is read. -/
example : (idOf (ascii "abc" ++ zeros 10) 0 13).length < 5 ∧
    (entryBytes (ascii "xy" ++ zeros 11) 0 13).take (idOf (ascii "abc" ++ zeros 10) 0 13).length = ascii "xy" ++ [0] := by decide +kernel

/-- The hypotheses of `C92_new` and of `C92_old` hold for changes early and late. -/
example : 2 ≤ (idOf (ascii "abc" ++ zeros 10) 0 13).length ∧ 2 ≤ (idOf (ascii "xy" ++ zeros 11) 0 13).length ∧
    13 + (idOf (ascii "abc" ++ zeros 10) 0 13).length ≤ 16 := by decide +kernel

/-- The hypotheses of `C70_exact` hold in the sample site, where the new board has no directory. -/
example : ∃ fs', sampleDB.addBoardRecord asciiCodec sampleFS newSampleBoard = .ok fs' ∧ newSampleBoard.brdName ≠ [] := by
  obtain ⟨fs', hf⟩ := sampleFS_addBoard newSampleBoard
  exact ⟨fs', hf, by decide⟩

theorem takeWhile_length {α : Type} (p : α → Bool) (l : List α) (n : Nat) :
    (l.takeWhile p).length = n ↔ n ≤ l.length ∧ (∀ k x, k < n → l[k]? = some x → p x = true) ∧ ∀ x, l[n]? = some x → p x = false := by
  induction l generalizing n with
  | nil =>
    rw [List.takeWhile_nil, List.length_nil]
    constructor
    · rintro rfl
      exact ⟨Nat.le_refl 0, by simp, by simp⟩
    · exact fun h => (Nat.le_zero.mp h.1).symm
  | cons y l ih =>
    rw [List.takeWhile_cons]
    by_cases hy : p y = true
    · rw [if_pos hy, List.length_cons]
      cases n with
      | zero =>
        refine ⟨fun h => absurd h (by omega), fun h => ?_⟩
        have := h.2.2 y rfl
        rw [hy] at this; cases this
      | succ n =>
        rw [Nat.add_right_cancel_iff, ih]
        constructor
        · rintro ⟨h1, h2, h3⟩
          refine ⟨by rw [List.length_cons]; omega, fun k x hk hx => ?_, fun x hx => h3 x (by simpa using hx)⟩
          cases k with
          | zero => simp only [List.getElem?_cons_zero, Option.some.injEq] at hx; rw [← hx]; exact hy
          | succ k => exact h2 k x (by omega) (by simpa using hx)
        · rintro ⟨h1, h2, h3⟩
          rw [List.length_cons] at h1
          exact ⟨by omega, fun k x hk hx => h2 (k + 1) x (by omega) (by simpa using hx), fun x hx => h3 x (by simpa using hx)⟩
    · rw [if_neg hy, List.length_nil]
      constructor
      · rintro rfl
        refine ⟨Nat.zero_le _, fun k x hk => absurd hk (by omega), fun x hx => ?_⟩
        simp only [List.getElem?_cons_zero, Option.some.injEq] at hx
        rw [← hx]; exact Bool.eq_false_iff.mpr hy
      · intro h
        cases n with
        | zero => rfl
        | succ n => exact absurd (h.2.1 0 y (by omega) rfl) hy

/-- **C92, any number of changes at any times.** Exactly what can be read while the segment is changed, again and again, among given contents: strings each of
whose bytes stands at its place in one of the contents, if at each of these places one of the contents has no NUL, and behind them one has a NUL. -/
theorem C92_exact (contents : Bytes → Prop) (hne : ∃ m, contents m) (start len : Nat) (xs : Bytes) :
    (∃ mem : Nat → Bytes, (∀ t, contents (mem t)) ∧ userIDLive mem start len = xs) ↔
      xs.length ≤ len ∧
      (∀ k x, xs[k]? = some x → (∃ m, contents m ∧ m.getD (start + k) 0 = x) ∧ ∃ m, contents m ∧ m.getD (start + k) 0 ≠ 0) ∧
      (xs.length < len → ∃ m, contents m ∧ m.getD (start + xs.length) 0 = 0) := by
  have get : ∀ (g : Nat → UInt8) (k : Nat), ((List.range len).map g)[k]? = if k < len then some (g k) else none := by
    intro g k
    by_cases hk : k < len
    · rw [List.getElem?_map, List.getElem?_range hk, if_pos hk]; rfl
    · rw [if_neg hk, List.getElem?_eq_none (by simp; omega)]
  have len_iff : ∀ (mem : Nat → Bytes) (n : Nat), (userIDLive mem start len).length = n ↔
      n ≤ len ∧ (∀ k, k < n → (mem k).getD (start + k) 0 ≠ 0) ∧ (n < len → (mem n).getD (start + n) 0 = 0) := by
    intro mem n
    have : (userIDLive mem start len).length = (((List.range len).map fun k => (mem k).getD (start + k) 0).takeWhile (· != 0)).length := by
      simp [userIDLive]
    rw [this, takeWhile_length]
    simp only [get, List.length_map, List.length_range]
    constructor
    · rintro ⟨h1, h2, h3⟩
      exact ⟨h1, fun k hk => by simpa using h2 k _ hk (if_pos (by omega)), fun hn => by simpa using h3 _ (if_pos hn)⟩
    · rintro ⟨h1, h2, h3⟩
      refine ⟨h1, fun k x hk hx => ?_, fun x hx => ?_⟩
      · rw [if_pos (by omega)] at hx
        cases hx
        simpa using h2 k hk
      · split at hx
        · next hn => cases hx; simpa using h3 hn
        · cases hx
  constructor
  · rintro ⟨mem, hm, rfl⟩
    obtain ⟨h1, h2, h3⟩ := (len_iff mem _).mp rfl
    refine ⟨h1, fun k x hx => ?_, fun hn => ⟨_, hm _, h3 hn⟩⟩
    obtain ⟨hk, -⟩ := List.getElem?_eq_some_iff.mp hx
    have := (C92_bytes mem start len).2 k hk
    rw [hx] at this
    exact ⟨⟨_, hm _, (Option.some.inj this).symm⟩, _, hm k, h2 k hk⟩
  · rintro ⟨h1, h2, h3⟩
    obtain ⟨m0, hm0⟩ := hne
    have seek : ∀ k, ∃ m, contents m ∧ (k < xs.length → m.getD (start + k) 0 ≠ 0) ∧ (k = xs.length → xs.length < len → m.getD (start + k) 0 = 0) := by
      intro k
      by_cases hk : k < xs.length
      · obtain ⟨-, m, h4, h5⟩ := h2 k _ (List.getElem?_eq_getElem hk)
        exact ⟨m, h4, fun _ => h5, fun e => absurd hk (by omega)⟩
      · by_cases hn : xs.length < len
        · obtain ⟨m, h4, h5⟩ := h3 hn
          exact ⟨m, h4, fun h => absurd h hk, fun e _ => by rw [e]; exact h5⟩
        · exact ⟨m0, hm0, fun h => absurd h hk, fun _ h => absurd h hn⟩
    have copy : ∀ k, ∃ m, contents m ∧ (∀ x, xs[k]? = some x → m.getD (start + k) 0 = x) := by
      intro k
      cases hx : xs[k]? with
      | none => exact ⟨m0, hm0, nofun⟩
      | some x =>
        obtain ⟨⟨m, h4, h5⟩, -⟩ := h2 k x hx
        exact ⟨m, h4, fun y hy => by rw [h5]; exact Option.some.inj hy⟩
    let mem : Nat → Bytes := fun t => if t < len then Classical.choose (seek t) else Classical.choose (copy (t - len))
    have mem_lo : ∀ t, t < len → mem t = Classical.choose (seek t) := fun t h => if_pos h
    have mem_hi : ∀ k, mem (len + k) = Classical.choose (copy k) := fun k => by
      show (if len + k < len then _ else _) = _
      rw [if_neg (by omega), Nat.add_sub_cancel_left]
    have hl : (userIDLive mem start len).length = xs.length := by
      refine (len_iff mem _).mpr ⟨h1, fun k hk => ?_, fun hn => ?_⟩
      · rw [mem_lo k (by omega)]; exact (Classical.choose_spec (seek k)).2.1 hk
      · rw [mem_lo _ hn]; exact (Classical.choose_spec (seek xs.length)).2.2 rfl hn
    refine ⟨mem, fun t => ?_, ?_⟩
    · by_cases h : t < len
      · rw [mem_lo t h]; exact (Classical.choose_spec (seek t)).1
      · have := mem_hi (t - len)
        rw [show len + (t - len) = t by omega] at this
        rw [this]; exact (Classical.choose_spec (copy (t - len))).1
    · apply List.ext_getElem?
      intro k
      by_cases hk : k < xs.length
      · rw [(C92_bytes mem start len).2 k (by omega), mem_hi]
        exact (congrArg some ((Classical.choose_spec (copy k)).2 _ (List.getElem?_eq_getElem hk))).trans (List.getElem?_eq_getElem hk).symm
      · rw [List.getElem?_eq_none (by omega), List.getElem?_eq_none (by omega)]

/-- With `abc` and `xy` coming and going, `xbc` can be read, though nobody has that name; `abcd` cannot. -/
example : (∃ mem : Nat → Bytes, (∀ t, mem t = ascii "abc" ++ zeros 10 ∨ mem t = ascii "xy" ++ zeros 11) ∧ userIDLive mem 0 13 = ascii "xbc") ∧
    ¬ ∃ mem : Nat → Bytes, (∀ t, mem t = ascii "abc" ++ zeros 10 ∨ mem t = ascii "xy" ++ zeros 11) ∧ userIDLive mem 0 13 = ascii "abcd" := by
  constructor
  · refine (C92_exact (fun m => m = ascii "abc" ++ zeros 10 ∨ m = ascii "xy" ++ zeros 11) ⟨_, .inl rfl⟩ 0 13 _).mpr ⟨by decide, fun k x hx => ?_, fun _ =>
      ⟨_, .inl rfl, by decide +kernel⟩⟩
    match k, hx with
    | 0, hx => exact ⟨⟨_, .inr rfl, by rw [← Option.some.inj hx]; decide +kernel⟩, _, .inl rfl, by decide +kernel⟩
    | 1, hx => exact ⟨⟨_, .inl rfl, by rw [← Option.some.inj hx]; decide +kernel⟩, _, .inl rfl, by decide +kernel⟩
    | 2, hx => exact ⟨⟨_, .inl rfl, by rw [← Option.some.inj hx]; decide +kernel⟩, _, .inl rfl, by decide +kernel⟩
    | k + 3, hx => exact absurd hx (by rw [List.getElem?_eq_none (by show 3 ≤ k + 3; omega)]; exact nofun)
  · rintro ⟨mem, h1, h2⟩
    obtain ⟨-, h, -⟩ := (C92_exact (fun m => m = ascii "abc" ++ zeros 10 ∨ m = ascii "xy" ++ zeros 11) ⟨_, .inl rfl⟩ 0 13 _).mp ⟨mem, h1, h2⟩
    obtain ⟨-, m, rfl | rfl, h4⟩ := h 3 100 rfl
    · exact h4 (by decide +kernel)
    · exact h4 (by decide +kernel)

end Verif
