import Verif.Model.Logins
import Verif.Proofs.Time
import Verif.Proofs.Strings
import Verif.Props.Lists
/-!
# C40–C41: login logs
-/

namespace Verif
open Spec

/-! ## Lemmas -/

theorem trimLeftAux_length : ∀ (n : Nat) (s : Bytes), (trimLeftAux n s).length ≤ s.length := by
  intro n
  induction n with
  | zero => intro s; exact Nat.le_refl _
  | succ n ih =>
    intro s
    match s with
    | [] => exact Nat.le_refl _
    | [a] => simp only [trimLeftAux]; split <;> simp
    | [a, b] =>
      have := ih [b]
      simp only [trimLeftAux]
      repeat' split
      all_goals simp_all
      all_goals omega
    | a :: b :: c :: t =>
      have h1 := ih (b :: c :: t)
      have h2 := ih (c :: t)
      have h3 := ih t
      simp only [trimLeftAux]
      simp only [List.length_cons] at *
      repeat' split
      all_goals (try simp only [List.length_cons]) <;> omega

theorem trimRightAux_length : ∀ (n : Nat) (s : Bytes), (trimRightAux n s).length ≤ s.length := by
  intro n
  induction n with
  | zero => intro s; exact Nat.le_refl _
  | succ n ih =>
    intro s
    match s with
    | [] => exact Nat.le_refl _
    | [a] => simp only [trimRightAux]; split <;> simp
    | [a, b] =>
      have := ih [b]
      simp only [trimRightAux]
      repeat' split
      all_goals simp_all
      all_goals omega
    | a :: b :: c :: t =>
      have h1 := ih (b :: c :: t)
      have h2 := ih (c :: t)
      have h3 := ih t
      simp only [trimRightAux]
      simp only [List.length_cons] at *
      repeat' split
      all_goals (try simp only [List.length_cons]) <;> omega

theorem trimSpace_length (s : Bytes) : (trimSpace s).length ≤ s.length := by
  unfold trimSpace trimRight trimLeft
  have h1 := trimLeftAux_length s.length s
  have h2 := trimRightAux_length (trimLeftAux s.length s).length (trimLeftAux s.length s).reverse
  simp only [List.length_reverse] at *
  omega

theorem dayName_length (t : Civil) : (dayNames.getD (weekday t) []).length = 3 := by
  have h : weekday t < 7 := Nat.mod_lt _ (by omega)
  have key : ∀ k : Fin 7, (dayNames.getD k.val []).length = 3 := by decide
  exact key ⟨_, h⟩

theorem timeFormat_bad_length (t : Civil) : (timeFormat layoutBad t).length = 25 := by
  have := dayName_length t
  simp only [List.getD_eq_getElem?_getD] at this
  simp [timeFormat, layoutBad, layoutRecent, Chunk.format, dec2, dec4, this]

theorem timeFormat_bad_head (t : Civil) : ∃ r, timeFormat layoutBad t = 91 :: r := ⟨_, rfl⟩

theorem timeFormat_bad_no_newline (t : Civil) : (10 : UInt8) ∉ timeFormat layoutBad t := by
  have h : weekday t < 7 := Nat.mod_lt _ (by omega)
  have key : ∀ k : Fin 7, (10 : UInt8) ∉ dayNames.getD k.val [] := by decide
  have hw := key ⟨_, h⟩
  have h2 : ∀ n, (10 : UInt8) ∉ dec2 n := by
    intro n hm
    have := (dec2_digits n _ hm).1
    simp at this
  have e : timeFormat layoutBad t =
      91 :: (dec2 t.month ++ (47 :: (dec2 t.day ++ (47 :: (dec2 (t.year / 100) ++ (dec2 (t.year % 100) ++
        (32 :: (dec2 t.hour ++ (58 :: (dec2 t.min ++ (58 :: (dec2 t.sec ++ (32 ::
          (dayNames.getD (weekday t) [] ++ [93])))))))))))))) := by
    simp [timeFormat, layoutBad, layoutRecent, Chunk.format, dec4]
  rw [e]
  simp only [List.mem_cons, List.mem_append, h2, List.not_mem_nil, or_false, false_or]
  simp only [hw, false_or]
  decide

theorem Res.Returns.ok {α : Type} (a : α) : (Res.ok a).Returns := trivial
theorem Res.Returns.err {α : Type} (e : String) : (Res.err e : Res α).Returns := trivial

theorem Res.Returns.bind {α β : Type} {r : Res α} {f : α → Res β} (h : r.Returns) (hf : ∀ a, (f a).Returns) :
    (r >>= f).Returns := by
  cases r with
  | ok a => exact hf a
  | err e => exact trivial
  | panic => exact h
  | diverge => exact h

theorem getnum_returns (b : Bool) (v : Bytes) : (getnum b v).Returns := by
  unfold getnum
  repeat' split
  all_goals trivial

theorem Chunk.parse_returns (t : Civil) (v : Bytes) (c : Chunk) : (c.parse t v).Returns := by
  have hl : (lookupDay v).Returns := by unfold lookupDay; split <;> trivial
  have hf : ∀ v, (skipFraction v).Returns := by
    intro v; unfold skipFraction; repeat' split
    all_goals trivial
  cases c <;> simp only [Chunk.parse]
  case lit => repeat' split
              all_goals trivial
  case space => repeat' split
                all_goals trivial
  case year => repeat' split
               all_goals trivial
  case weekday => exact hl.bind (fun _ => trivial)
  case second =>
    refine (getnum_returns _ _).bind (fun a => ?_)
    split
    · trivial
    · exact (hf _).bind (fun _ => trivial)
  all_goals
    refine (getnum_returns _ _).bind (fun a => ?_)
    (try split) <;> trivial

theorem parseChunks_returns : ∀ (cs : List Chunk) (t : Civil) (v : Bytes), (parseChunks cs t v).Returns := by
  intro cs
  induction cs with
  | nil => intro t v; trivial
  | cons c cs ih => intro t v; exact (Chunk.parse_returns t v c).bind (fun a => ih a.1 a.2)

/-- `time.Parse` returns a time or an error. -/
theorem timeParse_returns (layout : List Chunk) (v : Bytes) : (timeParse layout v).Returns := by
  refine (parseChunks_returns _ _ _).bind (fun a => ?_)
  repeat' split
  all_goals trivial

theorem substr_ok {s : Bytes} {i j : Nat} (h1 : i ≤ j) (h2 : j ≤ s.length) :
    substr s i j = .ok ((s.take j).drop i) := if_pos ⟨h1, h2⟩

theorem substr_panic {s : Bytes} {i j : Nat} (h2 : s.length < j) : substr s i j = .panic :=
  if_neg (fun h => absurd h.2 (Nat.not_le.mpr h2))

theorem substr_panic' {s : Bytes} {i j : Nat} (h2 : j < i) : substr s i j = .panic :=
  if_neg (fun h => absurd h.1 (Nat.not_le.mpr h2))

theorem substr_mid (x y z : Bytes) : substr (x ++ (y ++ z)) x.length (x.length + y.length) = .ok y := by
  rw [substr_ok (by omega) (by simp)]
  congr 1
  rw [List.take_append, List.take_of_length_le (by omega), Nat.add_sub_cancel_left, List.take_left, List.drop_left]

/-- The rest of a line of the right shape. -/
theorem unmarshalRest_eq (pre : Bytes) (t : Civil) (ht : t.Valid) (b : UInt8) (h : Bytes) (s : Bool) (id : Bytes) :
    unmarshalRest (pre ++ (timeFormat layoutBad t ++ b :: h)) s id pre.length =
      .ok ⟨s, trimSpace id, t, trimLeftSet fromHostPrefix h⟩ := by
  have hl := timeFormat_bad_length t
  simp only [unmarshalRest, loginTimeLength]
  have e1 : substr (pre ++ (timeFormat layoutBad t ++ b :: h)) pre.length (pre.length + 25) =
      .ok (timeFormat layoutBad t) := by
    rw [← hl]; exact substr_mid _ _ _
  have e2 : substr (pre ++ (timeFormat layoutBad t ++ b :: h)) (pre.length + 25 + 1)
      (pre ++ (timeFormat layoutBad t ++ b :: h)).length = .ok h := by
    rw [substr_ok (by simp; omega) (Nat.le_refl _), List.take_length]
    congr 1
    have : pre.length + 25 + 1 = (pre ++ (timeFormat layoutBad t ++ [b])).length := by simp [hl]
    rw [this]
    have e : pre ++ (timeFormat layoutBad t ++ b :: h) = (pre ++ (timeFormat layoutBad t ++ [b])) ++ h := by simp
    rw [e, List.drop_left]
  rw [e1, Res.ok_bind, parse_format_bad t ht, Res.ok_bind, e2, Res.ok_bind]

/-! ## C40 -/

/-- The claim: a login attempt with an id of at most 12 bytes without surrounding blanks survives a save/load cycle. -/
def Spec.LoginRoundTrip : Prop :=
  ∀ l : LoginAttempt, l.userID.length ≤ 12 → trimSpace l.userID = l.userID → l.time.Valid →
    unmarshalAttempt l.marshal = .ok l

/-- What the two file formats can hold: no id and a failure (the user's own file), or an id of 2 to 12 bytes, each of them
a character of its own, without surrounding blanks (the system's file). -/
def Spec.LoginId (l : LoginAttempt) : Prop :=
  (l.userID = [] ∧ l.success = false) ∨
    (2 ≤ l.userID.length ∧ l.userID.length ≤ 12 ∧ (runes l.userID).length = l.userID.length ∧
      trimSpace l.userID = l.userID)

/-- A host the parser does not eat into. -/
def Spec.LoginHost (h : Bytes) : Prop := h.head? ≠ some 63 ∧ h.head? ≠ some 64

theorem trimLeftSet_length (cut s : Bytes) : (trimLeftSet cut s).length ≤ s.length :=
  (List.dropWhile_sublist _).length_le

theorem trimHost (h : Bytes) : trimLeftSet fromHostPrefix (fromHostPrefix ++ h) = trimLeftSet fromHostPrefix h := rfl

theorem trimHost_eq {h : Bytes} : trimLeftSet fromHostPrefix h = h ↔ Spec.LoginHost h := by
  unfold Spec.LoginHost
  cases h with
  | nil => simp [trimLeftSet]
  | cons a h =>
    by_cases ha : a = 63 ∨ a = 64
    · have e : trimLeftSet fromHostPrefix (a :: h) = trimLeftSet fromHostPrefix h := by
        rcases ha with rfl | rfl <;> rfl
      have := trimLeftSet_length fromHostPrefix h
      constructor
      · intro h1
        rw [e] at h1
        have := congrArg List.length h1
        simp at this; omega
      · rintro ⟨h1, h2⟩
        simp at h1 h2
        exact absurd ha (by simp [h1, h2])
    · have h1 : a ≠ 63 := fun h => ha (Or.inl h)
      have h2 : a ≠ 64 := fun h => ha (Or.inr h)
      have e : trimLeftSet fromHostPrefix (a :: h) = a :: h := by
        have : fromHostPrefix.contains a = false := by
          have : fromHostPrefix = [63, 64] := by decide
          rw [this]; simp [h1, h2]
        simp only [trimLeftSet, List.dropWhile_cons, this, Bool.false_eq_true, if_false]
      simp [e, h1, h2]

theorem marshal_home {l : LoginAttempt} (h : 2 ≤ l.userID.length) : l.marshal =
    ((if l.success then 32 else 45) :: padRight 12 l.userID) ++
      (timeFormat layoutBad l.time ++ 32 :: (fromHostPrefix ++ l.host)) := by
  have : l.underHome = true := by simp [LoginAttempt.underHome]; omega
  unfold LoginAttempt.marshal
  rw [this]
  cases l.success <;> simp [userIDLength]

theorem marshal_user {l : LoginAttempt} (h : l.userID.length < 2) : l.marshal =
    [] ++ (timeFormat layoutBad l.time ++ 32 :: l.host) := by
  have : l.underHome = false := by simp [LoginAttempt.underHome]; omega
  unfold LoginAttempt.marshal
  rw [this]
  simp

theorem runes_length_le (s : Bytes) : (runes s).length ≤ s.length := by
  induction h : s.length using Nat.strongRecOn generalizing s with
  | _ n ih =>
    subst h
    cases s with
    | nil => simp [runes_nil]
    | cons b rest =>
      rw [runes_cons]
      have hw := runeWidth_pos b rest
      have := ih (List.drop (runeWidth b rest) (b :: rest)).length (by simp; omega) _ rfl
      simp only [List.length_cons, List.length_drop] at *
      omega

/-- A line of the system's file whose first 12 bytes are the padded id. -/
theorem unmarshal_home (c : UInt8) (hc : c = 32 ∨ c = 45) (pad : Bytes) (hp : pad.length = 12) (t : Civil) (ht : t.Valid)
    (h : Bytes) : unmarshalAttempt ((c :: pad) ++ (timeFormat layoutBad t ++ 32 :: h)) =
      .ok ⟨c == 32, trimSpace pad, t, trimLeftSet fromHostPrefix h⟩ := by
  have e1 : substr ((c :: pad) ++ (timeFormat layoutBad t ++ 32 :: h)) 1 13 = .ok pad := by
    have := substr_mid [c] pad (timeFormat layoutBad t ++ 32 :: h)
    rw [hp] at this
    exact this
  have e2 := unmarshalRest_eq (c :: pad) t ht 32 h (c == 32) pad
  rw [List.length_cons, hp] at e2
  have eh : ((c :: pad) ++ (timeFormat layoutBad t ++ 32 :: h)).head? = some c := rfl
  unfold unmarshalAttempt userIDLength
  simp only [eh]
  rcases hc with rfl | rfl
  · rw [if_pos rfl, e1, Res.ok_bind]; exact e2
  · rw [if_neg (by decide), if_pos rfl, e1, Res.ok_bind]; exact e2

/-- A line whose time does not start behind the twelfth byte of the id is rejected. -/
theorem unmarshal_shifted (c : UInt8) (hc : c = 32 ∨ c = 45) (id : Bytes) (n : Nat) (hid : id.length ≤ 12)
    (hn : 12 < id.length + n) (rest : Bytes) (l : LoginAttempt) :
    unmarshalAttempt ((c :: (id ++ List.replicate n 32)) ++ rest) ≠ .ok l := by
  intro h
  have key : ∀ s x, unmarshalRest ((c :: (id ++ List.replicate n 32)) ++ rest) s x 13 ≠ .ok l := by
    intro s x h
    simp only [unmarshalRest, loginTimeLength] at h
    rw [Res.bind_eq_ok] at h
    obtain ⟨v, h1, h2⟩ := h
    rw [Res.bind_eq_ok] at h2
    obtain ⟨t, h2, _⟩ := h2
    have hv : v.head? = some 32 := by
      unfold substr at h1
      split at h1
      · rw [← Res.ok.inj h1, List.head?_drop, List.getElem?_take, if_pos (by omega), List.cons_append,
          List.getElem?_cons_succ, List.append_assoc, List.getElem?_append_right hid,
          List.getElem?_append_left (by simp; omega)]
        rw [List.getElem?_replicate, if_pos (by omega)]
      · exact absurd h1 (by simp)
    cases v with
    | nil => simp at hv
    | cons b v =>
      simp at hv
      subst hv
      have : timeParse layoutBad (32 :: v) = .err "bad" := rfl
      rw [this] at h2
      exact absurd h2 (by simp)
  have eh : ((c :: (id ++ List.replicate n 32)) ++ rest).head? = some c := rfl
  unfold unmarshalAttempt userIDLength at h
  simp only [eh] at h
  rcases hc with rfl | rfl
  · rw [if_pos rfl, Res.bind_eq_ok] at h
    obtain ⟨x, _, h2⟩ := h
    exact key _ _ h2
  · rw [if_neg (by decide), if_pos rfl, Res.bind_eq_ok] at h
    obtain ⟨x, _, h2⟩ := h
    exact key _ _ h2

theorem unmarshal_home_inv (c : UInt8) (hc : c = 32 ∨ c = 45) (rest : Bytes) (l : LoginAttempt)
    (h : unmarshalAttempt (c :: rest) = .ok l) : l.userID.length ≤ 12 := by
  have key : ∀ s x, substr (c :: rest) 1 13 = .ok x → unmarshalRest (c :: rest) s x 13 = .ok l → l.userID.length ≤ 12 := by
    intro s x h0 h
    simp only [unmarshalRest, loginTimeLength] at h
    simp only [Res.bind_eq_ok] at h
    obtain ⟨_, _, _, _, _, _, h⟩ := h
    rw [← Res.ok.inj h]
    have := trimSpace_length x
    unfold substr at h0
    split at h0
    · have e := congrArg List.length (Res.ok.inj h0)
      simp only [List.length_drop, List.length_take] at e
      simp only
      omega
    · exact absurd h0 (by simp)
  have eh : (c :: rest).head? = some c := rfl
  unfold unmarshalAttempt userIDLength at h
  simp only [eh] at h
  rcases hc with rfl | rfl
  · rw [if_pos rfl, Res.bind_eq_ok] at h
    obtain ⟨x, h1, h2⟩ := h
    exact key _ _ h1 h2
  · rw [if_neg (by decide), if_pos rfl, Res.bind_eq_ok] at h
    obtain ⟨x, h1, h2⟩ := h
    exact key _ _ h1 h2

/-- **C40**, the exact law: an attempt survives a save/load cycle iff its id and host fit the format. -/
theorem C40_exact (l : LoginAttempt) (ht : l.time.Valid) :
    unmarshalAttempt l.marshal = .ok l ↔ LoginId l ∧ LoginHost l.host := by
  by_cases hlen : l.userID.length < 2
  · rw [marshal_user hlen]
    have e := unmarshalRest_eq [] l.time ht 32 l.host false []
    obtain ⟨r, hr⟩ := timeFormat_bad_head l.time
    have e2 : unmarshalAttempt ([] ++ (timeFormat layoutBad l.time ++ 32 :: l.host)) =
        unmarshalRest ([] ++ (timeFormat layoutBad l.time ++ 32 :: l.host)) false [] 0 := by
      rw [hr]; rfl
    rw [e2]
    have e' : unmarshalRest ([] ++ (timeFormat layoutBad l.time ++ 32 :: l.host)) false [] 0 =
        .ok ⟨false, trimSpace [], l.time, trimLeftSet fromHostPrefix l.host⟩ := e
    rw [e']
    have en : trimSpace [] = [] := rfl
    rw [en]
    constructor
    · intro h
      have h := Res.ok.inj h
      have h1 : false = l.success := congrArg LoginAttempt.success h
      have h2 : [] = l.userID := congrArg LoginAttempt.userID h
      have h3 : trimLeftSet fromHostPrefix l.host = l.host := congrArg LoginAttempt.host h
      exact ⟨Or.inl ⟨h2.symm, h1.symm⟩, trimHost_eq.mp h3⟩
    · rintro ⟨h1, h2⟩
      rcases h1 with ⟨h3, h4⟩ | ⟨h3, _⟩
      · rw [trimHost_eq.mpr h2]
        cases l; simp_all
      · omega
  · have hlen : 2 ≤ l.userID.length := by omega
    have hc : (if l.success then (32 : UInt8) else 45) = 32 ∨ (if l.success then (32 : UInt8) else 45) = 45 := by
      cases l.success <;> simp
    have hs : ((if l.success then (32 : UInt8) else 45) == 32) = l.success := by
      cases l.success <;> rfl
    rw [marshal_home hlen]
    have hr := runes_length_le l.userID
    by_cases hp : l.userID.length ≤ 12 ∧ (runes l.userID).length = l.userID.length
    · have hpl : (padRight 12 l.userID).length = 12 := by
        simp [padRight]; omega
      rw [unmarshal_home _ hc _ hpl l.time ht, hs, trimHost]
      have et : trimSpace (padRight 12 l.userID) = trimSpace l.userID := trimSpace_blanks _ _
      rw [et]
      constructor
      · intro h
        have h := Res.ok.inj h
        have h2 : trimSpace l.userID = l.userID := congrArg LoginAttempt.userID h
        have h3 : trimLeftSet fromHostPrefix l.host = l.host := congrArg LoginAttempt.host h
        exact ⟨Or.inr ⟨hlen, hp.1, hp.2, h2⟩, trimHost_eq.mp h3⟩
      · rintro ⟨h1, h2⟩
        rcases h1 with ⟨h3, _⟩ | ⟨_, _, _, h3⟩
        · rw [h3] at hlen; simp at hlen
        · rw [h3, trimHost_eq.mpr h2]
    · constructor
      · intro h
        exfalso
        have h12 := unmarshal_home_inv _ hc _ l h
        refine unmarshal_shifted _ hc l.userID (12 - (runes l.userID).length) h12 ?_ _ l h
        have : (runes l.userID).length ≠ l.userID.length := fun e => hp ⟨h12, e⟩
        omega
      · rintro ⟨h1, _⟩
        rcases h1 with ⟨h3, _⟩ | ⟨_, h4, h5, _⟩
        · rw [h3] at hlen; simp at hlen
        · exact absurd ⟨h4, h5⟩ hp

/-- **C40**, the provable part in terms of the claim: every ASCII id of 2 to 12 bytes without surrounding blanks, every
time, success or failure, every host that does not start with `?` or `@`. -/
theorem C40_round_trip_partial (l : LoginAttempt) (h2 : 2 ≤ l.userID.length) (h12 : l.userID.length ≤ 12)
    (ha : ∀ b ∈ l.userID, b < 0x80) (hb : trimSpace l.userID = l.userID) (ht : l.time.Valid)
    (h63 : l.host.head? ≠ some 63) (h64 : l.host.head? ≠ some 64) : unmarshalAttempt l.marshal = .ok l :=
  (C40_exact l ht).mpr ⟨Or.inr ⟨h2, h12, by rw [runes_ascii ha]; simp, hb⟩, h63, h64⟩

/-- The sample line of the source's comment. -/
def sampleAttempt : LoginAttempt := ⟨false, ascii "test01", ⟨2021, 1, 1, 10, 15, 16⟩, ascii "172.22.0.1"⟩

example : 2 ≤ sampleAttempt.userID.length ∧ sampleAttempt.userID.length ≤ 12 ∧ (∀ b ∈ sampleAttempt.userID, b < 0x80) ∧
    trimSpace sampleAttempt.userID = sampleAttempt.userID ∧ sampleAttempt.time.Valid ∧
    sampleAttempt.host.head? ≠ some 63 ∧ sampleAttempt.host.head? ≠ some 64 ∧
    sampleAttempt.marshal = ascii "-test01      [01/01/2021 10:15:16 Fri] ?@172.22.0.1" := by decide +kernel

/-- A line of a user's own file. -/
example : unmarshalAttempt (ascii "[01/01/2021 10:15:16 Fri] 172.22.0.1") =
    .ok ⟨false, [], ⟨2021, 1, 1, 10, 15, 16⟩, ascii "172.22.0.1"⟩ := by decide +kernel

/-- **C40** fails: an id of one letter is dropped (and with it the success flag) … -/
theorem C40_one_letter_refuted : ¬ Spec.LoginRoundTrip := by
  intro h
  exact absurd (h { sampleAttempt with userID := ascii "a" } (by decide) (by decide) (by decide)) (by decide +kernel)

/-- … and a host starting with `@` loses it, whatever the rest of the attempt. -/
theorem C40_host_refuted (l : LoginAttempt) (ht : l.time.Valid) (h : l.host.head? = some 64 ∨ l.host.head? = some 63) :
    unmarshalAttempt l.marshal ≠ .ok l := by
  rw [Ne, C40_exact l ht]
  rintro ⟨_, h1, h2⟩
  rcases h with h | h
  · exact h2 h
  · exact h1 h

/-- … and so does an id with a character of more than one byte (such as any Chinese character in UTF-8). -/
theorem C40_wide_id_refuted (l : LoginAttempt) (ht : l.time.Valid) (hne : l.userID ≠ [])
    (h : (runes l.userID).length < l.userID.length) : unmarshalAttempt l.marshal ≠ .ok l := by
  rw [Ne, C40_exact l ht]
  rintro ⟨h1 | ⟨_, _, h1, _⟩, _⟩
  · exact hne h1.1
  · omega

example : ({ sampleAttempt with userID := [0xE4, 0xBD, 0xA0] } : LoginAttempt).time.Valid ∧
    (runes [0xE4, 0xBD, 0xA0]).length < 3 := by decide +kernel

/-! ### Files -/

/-- A log: every entry on a line of its own. -/
def Spec.logFile {α : Type} (line : α → Bytes) (ls : List α) : Bytes := ls.flatMap (fun l => line l ++ [10])

theorem rawLines_logFile {α : Type} (line : α → Bytes) (ls : List α) (h : ∀ l ∈ ls, (10 : UInt8) ∉ line l) :
    rawLines (logFile line ls) = ls.map line := by
  induction ls with
  | nil => rfl
  | cons l ls ih =>
    have e : logFile line (l :: ls) = line l ++ 10 :: logFile line ls := by simp [logFile]
    rw [e, rawLines_cons (h l (by simp)), ih (fun x hx => h x (by simp [hx]))]
    rfl

theorem takeWhile_eq_self {α : Type} (p : α → Bool) (l : List α) (h : ∀ x ∈ l, p x = true) : l.takeWhile p = l := by
  induction l with
  | nil => rfl
  | cons a l ih => simp [h a (by simp), ih (fun x hx => h x (by simp [hx]))]

theorem mapLines_logFile {α : Type} (line : α → Bytes) (f : Bytes → Res α) (ls : List α)
    (h1 : ∀ l ∈ ls, (10 : UInt8) ∉ line l) (h2 : ∀ l ∈ ls, (line l).getLast? ≠ some 13)
    (h3 : ∀ l ∈ ls, (line l).length < 65536) (h4 : ∀ l ∈ ls, f (line l) = .ok l) :
    mapLines f (scanLines (logFile line ls)).1 = .ok ls := by
  rw [scanLines_eq, rawLines_logFile line ls h1, takeWhile_eq_self, List.map_map]
  · clear h1 h3
    induction ls with
    | nil => rfl
    | cons l ls ih =>
      have e : dropCR (line l) = line l := if_neg (h2 l (by simp))
      simp only [List.map_cons, Function.comp_apply, e, mapLines]
      rw [h4 l (by simp), Res.ok_bind, ih (fun x hx => h2 x (by simp [hx])) (fun x hx => h4 x (by simp [hx]))]
      rfl
  · intro x hx
    obtain ⟨l, hl, rfl⟩ := List.mem_map.mp hx
    exact decide_eq_true (h3 l hl)

/-- A log file of any number of attempts is read back as written, whichever of the two formats each entry has. -/
theorem C40_file (ls : List LoginAttempt)
    (h : ∀ l ∈ ls, LoginId l ∧ LoginHost l.host ∧ l.time.Valid ∧ (10 : UInt8) ∉ l.userID ∧ (10 : UInt8) ∉ l.host ∧
      l.host.getLast? ≠ some 13 ∧ l.host.length ≤ 65000) :
    readBadLogins (logFile LoginAttempt.marshal ls) = .ok ls := by
  have shape : ∀ l ∈ ls, ∃ pre x, l.marshal = pre ++ 32 :: (x ++ l.host) ∧ (x = [] ∨ x = [63, 64]) ∧
      (10 : UInt8) ∉ pre ∧ pre.length ≤ 49 := by
    intro l hl
    obtain ⟨hid, _, _, hnl, _⟩ := h l hl
    have hf := timeFormat_bad_no_newline l.time
    have hfl := timeFormat_bad_length l.time
    by_cases hlen : l.userID.length < 2
    · exact ⟨_, [], by rw [marshal_user hlen]; simp, Or.inl rfl, hf, by omega⟩
    · refine ⟨((if l.success then 32 else 45) :: padRight 12 l.userID) ++ timeFormat layoutBad l.time, [63, 64], ?_,
        Or.inr rfl, ?_, ?_⟩
      · rw [marshal_home (by omega)]
        have : fromHostPrefix = [63, 64] := by decide
        rw [this]; simp
      · simp only [List.mem_append, List.mem_cons, padRight, not_or]
        refine ⟨⟨?_, hnl, ?_⟩, hf⟩
        · cases l.success <;> decide
        · intro hm
          exact absurd (List.eq_of_mem_replicate hm) (by decide)
      · rcases hid with ⟨h0, _⟩ | ⟨_, h12, _, _⟩
        · rw [h0] at hlen; simp at hlen
        · simp only [List.length_append, List.length_cons, padRight, List.length_replicate]
          omega
  refine mapLines_logFile _ _ ls ?_ ?_ ?_ ?_
  · intro l hl
    obtain ⟨pre, x, e, hx, hp, _⟩ := shape l hl
    have hh := (h l hl).2.2.2.2.1
    rw [e]
    rcases hx with rfl | rfl <;> simp [hp, hh]
  · intro l hl
    obtain ⟨pre, x, e, hx, _, _⟩ := shape l hl
    have hh := (h l hl).2.2.2.2.2.1
    rw [e, List.getLast?_append, ← List.singleton_append, List.getLast?_append, List.getLast?_append]
    cases hg : l.host.getLast? with
    | none => rcases hx with rfl | rfl <;> simp
    | some b =>
      rw [hg] at hh
      simpa using hh
  · intro l hl
    obtain ⟨pre, x, e, hx, _, hp⟩ := shape l hl
    have hh := (h l hl).2.2.2.2.2.2
    rw [e]
    rcases hx with rfl | rfl <;> simp <;> omega
  · intro l hl
    obtain ⟨h1, h2, h3, _⟩ := h l hl
    exact (C40_exact l h3).mpr ⟨h1, h2⟩

example : readBadLogins (logFile LoginAttempt.marshal [sampleAttempt, { sampleAttempt with userID := [] },
    { sampleAttempt with success := true }]) = .ok [sampleAttempt, { sampleAttempt with userID := [] },
    { sampleAttempt with success := true }] := by
  refine C40_file _ ?_
  have e1 : LoginId sampleAttempt := Or.inr (by decide)
  have e2 : LoginId { sampleAttempt with userID := [] } := Or.inl (by decide)
  have e3 : LoginId { sampleAttempt with success := true } := Or.inr (by decide)
  intro l hl
  simp only [List.mem_cons, List.not_mem_nil, or_false] at hl
  rcases hl with rfl | rfl | rfl
  · exact ⟨e1, by unfold LoginHost; decide, by decide, by decide, by decide, by decide, by decide⟩
  · exact ⟨e2, by unfold LoginHost; decide, by decide, by decide, by decide, by decide, by decide⟩
  · exact ⟨e3, by unfold LoginHost; decide, by decide, by decide, by decide, by decide, by decide⟩

/-! ### Recent logins -/

/-- A line of the recent-login file, as the C code writes it (with a blank at the end). -/
def Spec.recentLine (r : LoginRecent) (tail : Bytes) : Bytes :=
  timeFormat layoutRecent r.time ++ 32 :: (r.host ++ 32 :: tail)

theorem dec2_no_space (n : Nat) : (32 : UInt8) ∉ dec2 n := by
  intro hm
  have := (dec2_digits n _ hm).1
  simp at this

/-- Such a line is read back, for every host without a blank and every tail. -/
theorem C40_recent (r : LoginRecent) (tail : Bytes) (ht : r.time.Valid) (hh : (32 : UInt8) ∉ r.host) :
    newLoginRecent (recentLine r tail) = .ok r := by
  have e : timeFormat layoutRecent r.time =
      (dec2 r.time.month ++ (47 :: (dec2 r.time.day ++ (47 :: (dec2 (r.time.year / 100) ++ (dec2 (r.time.year % 100))))))) ++
        32 :: (dec2 r.time.hour ++ (58 :: (dec2 r.time.min ++ (58 :: (dec2 r.time.sec))))) := by
    simp [timeFormat, layoutRecent, Chunk.format, dec4]
  have hx : ∀ a b c d : Nat, (32 : UInt8) ∉ dec2 a ++ (47 :: (dec2 b ++ (47 :: (dec2 c ++ dec2 d)))) := by
    intro a b c d
    simp [dec2_no_space]
  have hy : ∀ a b c : Nat, (32 : UInt8) ∉ dec2 a ++ (58 :: (dec2 b ++ (58 :: dec2 c))) := by
    intro a b c
    simp [dec2_no_space]
  have hs : ∃ rest, splitByte 32 (recentLine r tail) =
      (dec2 r.time.month ++ (47 :: (dec2 r.time.day ++ (47 :: (dec2 (r.time.year / 100) ++ (dec2 (r.time.year % 100))))))) ::
      (dec2 r.time.hour ++ (58 :: (dec2 r.time.min ++ (58 :: (dec2 r.time.sec))))) :: r.host :: rest := by
    refine ⟨splitByte 32 tail, ?_⟩
    unfold recentLine
    rw [splitByte_sep, splitByte_sep, e, splitByte_sep, splitByte_of_not_mem (hx _ _ _ _),
      splitByte_of_not_mem (hy _ _ _), splitByte_of_not_mem hh]
    rfl
  obtain ⟨rest, hs⟩ := hs
  unfold newLoginRecent
  rw [hs]
  simp only
  have e2 := parse_format_recent r.time ht
  rw [e] at e2
  rw [List.append_assoc, List.singleton_append, e2]
  rfl

example : recentLine ⟨⟨2020, 10, 24, 5, 57, 18⟩, ascii "103.246.218.43"⟩ [] =
    ascii "10/24/2020 05:57:18 103.246.218.43 " ∧ (32 : UInt8) ∉ ascii "103.246.218.43" := by decide +kernel

/-! ## C41 -/

/-- The claim for the bad-login parser: every line gives a record or an error. -/
def Spec.LoginNeverCrashes : Prop := ∀ line, (unmarshalAttempt line).Returns

/-- Where the time of a line starts, for a line whose first byte announces one of the two formats. -/
def Spec.timeStart (line : Bytes) : Option Nat :=
  match line.head? with
  | some 32 => some 13
  | some 45 => some 13
  | some 91 => some 0
  | _ => none

theorem unmarshalRest_panic (line : Bytes) (s : Bool) (id : Bytes) (k : Nat) :
    ¬ (unmarshalRest line s id k).Returns ↔
      line.length < k + 25 ∨ (line.length = k + 25 ∧ ∃ t, timeParse layoutBad (line.drop k) = .ok t) := by
  simp only [unmarshalRest, loginTimeLength]
  by_cases h : line.length < k + 25
  · rw [substr_panic h]
    simp [h, Res.Returns]
  · rw [substr_ok (by omega) (by omega), Res.ok_bind]
    cases hp : timeParse layoutBad (List.drop k (List.take (k + 25) line)) with
    | panic => have := timeParse_returns layoutBad (List.drop k (List.take (k + 25) line)); rw [hp] at this; exact this.elim
    | diverge => have := timeParse_returns layoutBad (List.drop k (List.take (k + 25) line)); rw [hp] at this; exact this.elim
    | err e =>
      simp only [Res.err_bind, Res.Returns, not_true, false_iff, not_or, not_and]
      refine ⟨h, fun hl => ?_⟩
      rw [← hl, List.take_length] at hp
      rw [hp]; simp
    | ok t =>
      rw [Res.ok_bind]
      by_cases h2 : line.length = k + 25
      · rw [substr_panic' (by omega)]
        rw [← h2, List.take_length] at hp
        simp [Res.Returns, h2, hp]
      · rw [substr_ok (by omega) (Nat.le_refl _)]
        simp only [Res.ok_bind, Res.Returns, not_true, false_iff, not_or, not_and]
        exact ⟨h, fun hl => absurd hl h2⟩

/-- **C41**, the exact law: the parser crashes on the empty line and on lines that end with or before the time. -/
theorem C41_exact (line : Bytes) :
    ¬ (unmarshalAttempt line).Returns ↔
      line = [] ∨ ∃ k, timeStart line = some k ∧ (line.length < k + 25 ∨
        (line.length = k + 25 ∧ ∃ t, timeParse layoutBad (line.drop k) = .ok t)) := by
  cases line with
  | nil => simp [unmarshalAttempt, Res.Returns]
  | cons c rest =>
    have hh : (c :: rest).head? = some c := rfl
    unfold unmarshalAttempt timeStart userIDLength
    simp only [hh]
    have home : ∀ s, ¬ (substr (c :: rest) 1 (1 + 12) >>= fun id => unmarshalRest (c :: rest) s id (1 + 12)).Returns ↔
        (c :: rest).length < 13 + 25 ∨ ((c :: rest).length = 13 + 25 ∧
          ∃ t, timeParse layoutBad ((c :: rest).drop 13) = .ok t) := by
      intro s
      by_cases h : (c :: rest).length < 1 + 12
      · rw [substr_panic h]
        simp only [Res.panic_bind, Res.Returns, not_false_eq_true, true_iff]
        left; omega
      · rw [substr_ok (by omega) (by omega), Res.ok_bind]
        exact unmarshalRest_panic _ _ _ _
    by_cases h1 : c = 32
    · subst h1
      rw [if_pos rfl]
      refine (home true).trans ?_
      simp
      exact or_congr_left (by omega)
    · rw [if_neg h1]
      by_cases h2 : c = 45
      · subst h2
        rw [if_pos rfl]
        refine (home false).trans ?_
        simp
        exact or_congr_left (by omega)
      · rw [if_neg h2]
        by_cases h3 : c = 91
        · subst h3
          rw [if_pos rfl]
          refine (unmarshalRest_panic (91 :: rest) false [] 0).trans ?_
          simp
          exact or_congr_left (by omega)
        · rw [if_neg h3]
          simp [Res.Returns, h1, h2, h3]

/-- **C41**: lines that are neither empty nor cut off are safe. -/
theorem C41_long_line_partial (line : Bytes) (h : 39 ≤ line.length) : (unmarshalAttempt line).Returns := by
  apply Classical.byContradiction
  rw [C41_exact]
  have hk : ∀ k, timeStart line = some k → k ≤ 13 := by
    intro k hk
    unfold timeStart at hk
    split at hk <;> simp at hk <;> omega
  rintro (h1 | ⟨k, h1, h2⟩)
  · subst h1; simp at h
  · have := hk k h1
    omega

example : 39 ≤ (ascii "-test01      [01/01/2021 10:15:16 Fri] ?@172.22.0.1").length := by decide

/-- **C41** fails for the bad-login parser: the empty line, or a line cut off behind the user id. -/
theorem C41_empty_line_refuted : ¬ Spec.LoginNeverCrashes := fun h => h []

theorem C41_short_line_refuted : ¬ (unmarshalAttempt (ascii "-test01      ")).Returns := by
  rw [C41_exact]
  exact Or.inr ⟨13, by decide, Or.inl (by decide)⟩

/-- **C41** holds for recent logins: every line gives a record or an error. -/
theorem C41_recent (line : Bytes) : (newLoginRecent line).Returns := by
  unfold newLoginRecent
  split
  · exact (timeParse_returns _ _).bind (fun _ => trivial)
  · trivial

/-- A log file crashes its reader iff a crashing line comes before every line that is an error. -/
theorem mapLines_panic {α : Type} (f : Bytes → Res α) (ls : List Bytes) :
    ¬ (mapLines f ls).Returns ↔
      ∃ pre x post, ls = pre ++ x :: post ∧ (∀ l ∈ pre, ∃ a, f l = .ok a) ∧ ¬ (f x).Returns := by
  induction ls with
  | nil => simp [mapLines, Res.Returns]
  | cons l ls ih =>
    have step : (∃ pre x post, l :: ls = pre ++ x :: post ∧ (∀ l ∈ pre, ∃ a, f l = .ok a) ∧ ¬ (f x).Returns) ↔
        ¬ (f l).Returns ∨ ((∃ a, f l = .ok a) ∧
          ∃ pre x post, ls = pre ++ x :: post ∧ (∀ l ∈ pre, ∃ a, f l = .ok a) ∧ ¬ (f x).Returns) := by
      constructor
      · rintro ⟨pre, x, post, h1, h2, h3⟩
        cases pre with
        | nil => simp at h1; left; rw [h1.1]; exact h3
        | cons p pre =>
          simp at h1
          right
          refine ⟨by rw [h1.1]; exact h2 p (by simp), pre, x, post, h1.2, fun l hl => h2 l (by simp [hl]), h3⟩
      · rintro (h | ⟨h, pre, x, post, h1, h2, h3⟩)
        · exact ⟨[], l, ls, rfl, by simp, h⟩
        · refine ⟨l :: pre, x, post, by rw [h1]; rfl, ?_, h3⟩
          intro y hy
          rcases List.mem_cons.mp hy with rfl | hy
          · exact h
          · exact h2 y hy
    rw [step]
    simp only [mapLines]
    cases hf : f l with
    | ok a =>
      rw [Res.ok_bind]
      have : ¬ ((mapLines f ls >>= fun rest => Res.ok (a :: rest))).Returns ↔ ¬ (mapLines f ls).Returns := by
        cases mapLines f ls <;> simp [Res.Returns]
      rw [this, ih]
      simp [Res.Returns]
    | err e => simp [Res.Returns]
    | panic => simp [Res.Returns]
    | diverge => simp [Res.Returns]

/-- **C41** for a whole bad-login file, exactly. -/
theorem C41_file_exact (content : Bytes) : ¬ (readBadLogins content).Returns ↔
    ∃ pre x post, ((rawLines content).takeWhile (fun l => decide (l.length < 65536))).map dropCR = pre ++ x :: post ∧
      (∀ l ∈ pre, ∃ a, unmarshalAttempt l = .ok a) ∧ ¬ (unmarshalAttempt x).Returns := by
  unfold readBadLogins
  rw [mapLines_panic, scanLines_eq]

/-- The recent-login reader ends the process exactly when a line of 64 KiB or more follows lines that all parse. -/
theorem C41_recent_file_exact (content : Bytes) : ¬ (readRecentLogins content).Returns ↔
    (∃ l ∈ rawLines content, 65536 ≤ l.length) ∧
      ∀ l ∈ (rawLines content).takeWhile (fun l => decide (l.length < 65536)), ∃ r, newLoginRecent (dropCR l) = .ok r := by
  have h2 : (scanLines content).2 = true ↔ ∃ l ∈ rawLines content, 65536 ≤ l.length := by
    unfold scanLines
    rw [scanAux_eq _ content (Nat.le_refl _)]
    simp only [Bool.not_eq_true', List.all_eq_false]
    constructor
    · rintro ⟨x, hx, h⟩
      exact ⟨x, hx, Nat.le_of_not_lt (fun h' => h (decide_eq_true h'))⟩
    · rintro ⟨x, hx, h⟩
      exact ⟨x, hx, fun h' => absurd (of_decide_eq_true h') (Nat.not_lt.mpr h)⟩
  have h3 : (∃ rs, mapLines newLoginRecent (scanLines content).1 = .ok rs) ↔
      ∀ l ∈ (rawLines content).takeWhile (fun l => decide (l.length < 65536)), ∃ r, newLoginRecent (dropCR l) = .ok r := by
    rw [scanLines_eq]
    generalize (rawLines content).takeWhile (fun l => decide (l.length < 65536)) = ls
    induction ls with
    | nil => simp [mapLines]
    | cons l ls ih =>
      simp only [List.map_cons, mapLines, List.forall_mem_cons, ← ih]
      cases newLoginRecent (dropCR l) with
      | ok a => cases mapLines newLoginRecent (List.map dropCR ls) <;> simp
      | _ => simp
  have h4 : (mapLines newLoginRecent (scanLines content).1).Returns := by
    apply Classical.byContradiction
    rw [mapLines_panic]
    rintro ⟨_, x, _, _, _, h⟩
    exact h (C41_recent x)
  rw [← h2, ← h3]
  unfold readRecentLogins
  cases hm : mapLines newLoginRecent (scanLines content).1 with
  | ok rs => cases (scanLines content).2 <;> simp [Res.Returns]
  | err e => simp [Res.Returns]
  | panic => rw [hm] at h4; exact h4.elim
  | diverge => rw [hm] at h4; exact h4.elim

/-- The days of a month, by the rules of the calendar. -/
def Spec.monthDays (y m : Nat) : Nat :=
  [31, if 4 ∣ y ∧ (100 ∣ y → 400 ∣ y) then 29 else 28, 31, 30, 31, 30, 31, 31, 30, 31, 30, 31].getD (m - 1) 0

/-- The day after. -/
def Spec.nextDay (t : Civil) : Civil :=
  if t.day < Spec.monthDays t.year t.month then { t with day := t.day + 1 }
  else if t.month < 12 then { t with month := t.month + 1, day := 1 }
  else { t with year := t.year + 1, month := 1, day := 1 }

theorem daysIn_spec (y m : Nat) (h1 : 1 ≤ m) (h12 : m ≤ 12) : daysIn m y = Spec.monthDays y m := by
  have hl : isLeap y = true ↔ 4 ∣ y ∧ (100 ∣ y → 400 ∣ y) := by
    simp only [isLeap, Bool.and_eq_true, beq_iff_eq, Bool.or_eq_true, bne_iff_ne, ne_eq, Nat.dvd_iff_mod_eq_zero, Decidable.imp_iff_not_or]
  rcases (by omega : m = 1 ∨ m = 2 ∨ m = 3 ∨ m = 4 ∨ m = 5 ∨ m = 6 ∨ m = 7 ∨ m = 8 ∨ m = 9 ∨ m = 10 ∨ m = 11 ∨ m = 12) with
    rfl | rfl | rfl | rfl | rfl | rfl | rfl | rfl | rfl | rfl | rfl | rfl
  case inr.inl =>
    simp only [daysIn, Spec.monthDays, if_true, hl]
    rfl
  all_goals rfl

theorem dayNumber_next (t : Civil) (h1 : 1 ≤ t.month) (h12 : t.month ≤ 12) (hd : 1 ≤ t.day) (hm : t.day ≤ Spec.monthDays t.year t.month) :
    dayNumber (Spec.nextDay t) = dayNumber t + 1 := by
  obtain ⟨y, mo, d, hh, mi, se⟩ := t
  simp only at h1 h12 hd hm
  unfold Spec.nextDay
  simp only
  rw [← daysIn_spec y mo h1 h12] at hm ⊢
  split
  · simp only [dayNumber]
    omega
  · have hde : d = daysIn mo y := by omega
    split
    · simp only [dayNumber, daysBefore]
      rw [if_neg (by omega)]
      omega
    · have : mo = 12 := by omega
      subst this
      have hb : daysBefore y 12 + 31 = 365 + (if isLeap y then 1 else 0) := by
        simp only [daysBefore, daysIn]
        cases isLeap y <;> simp
      have h0 : daysBefore (y + 1) 1 = 0 := by simp [daysBefore]
      have h31 : d = 31 := by rw [hde]; simp [daysIn]
      simp only [dayNumber, h0]
      rw [h31]
      have h4 : (y + 1 + 3) / 4 = (y + 3) / 4 + (if y % 4 = 0 then 1 else 0) := by split <;> omega
      have h100 : (y + 1 + 99) / 100 = (y + 99) / 100 + (if y % 100 = 0 then 1 else 0) := by split <;> omega
      have h400 : (y + 1 + 399) / 400 = (y + 399) / 400 + (if y % 400 = 0 then 1 else 0) := by split <;> omega
      have hle : (y + 99) / 100 ≤ 365 * y := by omega
      rw [h4, h100, h400]
      have e1 : y % 400 = 0 → y % 100 = 0 := by omega
      have e2 : y % 100 = 0 → y % 4 = 0 := by omega
      have hl : isLeap y = true ↔ y % 4 = 0 ∧ (y % 100 ≠ 0 ∨ y % 400 = 0) := by simp [isLeap]
      clear h4 h100 h400
      generalize (y + 3) / 4 = a at *
      generalize (y + 99) / 100 = b at *
      generalize (y + 399) / 400 = c at *
      generalize daysBefore y 12 = e at *
      generalize y % 4 = r4 at *
      generalize y % 100 = r100 at *
      generalize y % 400 = r400 at *
      obtain ⟨k, hk⟩ : ∃ k, 365 * y = b + k := ⟨365 * y - b, by omega⟩
      have s1 : 365 * y + a - b = k + a := by omega
      have s2 : ∀ i j, j ≤ 1 → 365 * (y + 1) + (a + i) - (b + j) = k + a + 365 + i - j := by intro i j _; omega
      rw [s1, s2 _ _ (by split <;> omega)]
      clear s1 s2
      by_cases hy : isLeap y = true
      · have := hl.mp hy
        rw [if_pos hy] at hb
        rw [if_pos this.1]
        by_cases h1 : r100 = 0
        · have h4 := this.2.resolve_left (fun h => h h1)
          rw [if_pos h1, if_pos h4]
          clear hl this e1 e2
          omega
        · rw [if_neg h1, if_neg (fun h => h1 (e1 h))]
          clear hl this e1 e2
          omega
      · have hn := fun h => hy (hl.mpr h)
        rw [if_neg hy] at hb
        by_cases h1 : r4 = 0
        · by_cases h2 : r100 = 0
          · have h3 : r400 ≠ 0 := fun h => hn ⟨h1, .inr h⟩
            rw [if_pos h1, if_pos h2, if_neg h3]
            clear hl hn e1 e2
            omega
          · exact absurd ⟨h1, .inl h2⟩ hn
        · rw [if_neg h1, if_neg (fun h => h1 (e2 h)), if_neg (fun h => h1 (e2 (e1 h)))]
          clear hl hn e1 e2
          omega

/-- **C40**: the day of the week that is written is the right one: January 1, 1970 was a Thursday, and each day has the name after the one before. -/
theorem C40_weekday (t : Civil) (h1 : 1 ≤ t.month) (h12 : t.month ≤ 12) (hd : 1 ≤ t.day) (hm : t.day ≤ Spec.monthDays t.year t.month) :
    weekday (Spec.nextDay t) = (weekday t + 1) % 7 ∧ weekday ⟨1970, 1, 1, t.hour, t.min, t.sec⟩ = 4 := by
  refine ⟨?_, by simp [weekday, dayNumber, daysBefore]⟩
  unfold weekday
  rw [dayNumber_next t h1 h12 hd hm]
  omega

example : Spec.nextDay ⟨2024, 2, 28, 0, 0, 0⟩ = ⟨2024, 2, 29, 0, 0, 0⟩ ∧ Spec.nextDay ⟨1900, 2, 28, 0, 0, 0⟩ = ⟨1900, 3, 1, 0, 0, 0⟩ ∧
    Spec.nextDay ⟨1999, 12, 31, 0, 0, 0⟩ = ⟨2000, 1, 1, 0, 0, 0⟩ ∧ 31 ≤ Spec.monthDays 1999 12 := by decide

end Verif
