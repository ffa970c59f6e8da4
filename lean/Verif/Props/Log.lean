import Verif.Model.Log
import Verif.Proofs.Paths
import Verif.Props.Flags
import Verif.Props.Lists
/-!
# What is written to the log (C150, C151)
-/

namespace Verif

open Spec

/-! ## C150: whose words the lines of the log are -/

/-- `2009/01/23 01:23:23 `: digits where 48 is, the byte itself elsewhere. -/
def Spec.isStamp : Bytes → Bool
  | [a, b, c, d, s1, e, f, s2, g, h, s3, i, j, s4, k, l, s5, m, n, s6] =>
    [a, b, c, d, e, f, g, h, i, j, k, l, m, n].all (fun x => 48 ≤ x && x ≤ 57) &&
      (s1 == slash && s2 == slash && s3 == 32 && s4 == 58 && s5 == 58 && s6 == 32)
  | _ => false

/-- A line that begins with a time stamp. -/
def Spec.stamped (l : Bytes) : Bool := isStamp (l.take 20)

/-- The lines of a text, all of which end. -/
def Spec.logLines (text : Bytes) : List Bytes := (splitByte 10 text).dropLast

/-- The first line of an entry, as the program meant it. -/
def Spec.firstLine (e : LogEntry) : Bytes := e.stamp ++ e.message.takeWhile (· != 10)

theorem isStamp_facts {s : Bytes} (h : isStamp s = true) : s.length = 20 ∧ (10 : UInt8) ∉ s ∧ slash ∈ s := by
  unfold isStamp at h
  split at h
  · simp only [List.all_cons, List.all_nil, Bool.and_true, Bool.and_eq_true, decide_eq_true_eq, beq_iff_eq] at h
    obtain ⟨⟨⟨h1, _⟩, ⟨h2, _⟩, ⟨h3, _⟩, ⟨h4, _⟩, ⟨h5, _⟩, ⟨h6, _⟩, ⟨h7, _⟩, ⟨h8, _⟩, ⟨h9, _⟩, ⟨h10, _⟩, ⟨h11, _⟩, ⟨h12, _⟩, ⟨h13, _⟩,
      ⟨h14, _⟩⟩, ⟨⟨⟨⟨⟨e1, e2⟩, e3⟩, e4⟩, e5⟩, e6⟩⟩ := h
    subst e1 e2 e3 e4 e5 e6
    have no : ∀ x : UInt8, 48 ≤ x → (10 : UInt8) ≠ x := by
      intro x hx e
      subst e
      exact absurd hx (by decide)
    refine ⟨rfl, ?_, by simp⟩
    simp only [List.mem_cons, List.not_mem_nil, or_false, not_or]
    exact ⟨no _ h1, no _ h2, no _ h3, no _ h4, by decide, no _ h5, no _ h6, by decide, no _ h7, no _ h8, by decide, no _ h9, no _ h10, by decide,
      no _ h11, no _ h12, by decide, no _ h13, no _ h14, by decide⟩
  · cases h

theorem stamped_slash {l : Bytes} (h : stamped l = true) : slash ∈ l := List.mem_of_mem_take (isStamp_facts h).2.2

theorem mem_of_splitByte {b : UInt8} {s : Bytes} : ∀ {p}, p ∈ splitByte b s → ∀ {x}, x ∈ p → x ∈ s := by
  induction s with
  | nil =>
    intro p hp x hx
    simp only [splitByte, List.mem_singleton] at hp
    subst hp
    cases hx
  | cons c cs ih =>
    intro p hp x hx
    rw [splitByte] at hp
    split at hp
    · rcases List.mem_cons.mp hp with rfl | hp
      · cases hx
      · exact List.mem_cons_of_mem _ (ih hp hx)
    · obtain ⟨h, t, e⟩ : ∃ h t, splitByte b cs = h :: t := by
        cases e : splitByte b cs with
        | nil => exact absurd e (splitByte_ne_nil _ _)
        | cons h t => exact ⟨h, t, rfl⟩
      rw [e] at hp
      rcases List.mem_cons.mp hp with rfl | hp
      · rcases List.mem_cons.mp hx with rfl | hx
        · exact List.mem_cons_self ..
        · exact List.mem_cons_of_mem _ (ih (e ▸ List.mem_cons_self ..) hx)
      · exact List.mem_cons_of_mem _ (ih (e ▸ List.mem_cons_of_mem _ hp) hx)

theorem splitByte_takeWhile (s : Bytes) : ∃ t, splitByte 10 s = s.takeWhile (· != 10) :: t := by
  induction s with
  | nil => exact ⟨[], rfl⟩
  | cons c cs ih =>
    obtain ⟨t, e⟩ := ih
    rw [splitByte, e]
    by_cases hc : c = 10
    · subst hc; exact ⟨cs.takeWhile (· != 10) :: t, by simp⟩
    · exact ⟨t, by simp [hc]⟩

theorem splitByte_count (b : UInt8) (s : Bytes) : (splitByte b s).length = 1 + s.count b := by
  induction s with
  | nil => rfl
  | cons c cs ih =>
    rw [splitByte]
    split
    · rename_i h; subst h; rw [List.length_cons, ih, List.count_cons_self]; omega
    · rename_i h
      obtain ⟨x, t, e⟩ : ∃ x t, splitByte b cs = x :: t := by
        cases e : splitByte b cs with
        | nil => exact absurd e (splitByte_ne_nil _ _)
        | cons x t => exact ⟨x, t, rfl⟩
      rw [e] at ih ⊢
      rw [List.count_cons_of_ne h]
      exact ih

theorem splitByte_logText (es : List LogEntry) :
    splitByte 10 (logText es) = es.flatMap (fun e => splitByte 10 (e.stamp ++ e.message)) ++ [[]] := by
  induction es with
  | nil => rfl
  | cons e es ih =>
    have h : logText (e :: es) = (e.stamp ++ e.message) ++ 10 :: logText es := by
      simp [logText, LogEntry.text]
    rw [h, splitByte_sep, ih, List.flatMap_cons, List.append_assoc]

theorem logLines_logText (es : List LogEntry) : logLines (logText es) = es.flatMap (fun e => splitByte 10 (e.stamp ++ e.message)) := by
  rw [logLines, splitByte_logText, List.dropLast_concat]

theorem entry_lines {e : LogEntry} (h : isStamp e.stamp = true) :
    splitByte 10 (e.stamp ++ e.message) = firstLine e :: (splitByte 10 e.message).tail := by
  obtain ⟨x, t, h1, h2⟩ := splitByte_prefix (isStamp_facts h).2.1 e.message
  obtain ⟨t', h3⟩ := splitByte_takeWhile e.message
  rw [h2, h1, firstLine]
  rw [h1] at h3
  rw [(List.cons.inj h3).1]
  rfl

theorem firstLine_stamped {e : LogEntry} (h : isStamp e.stamp = true) : stamped (firstLine e) = true := by
  rw [stamped, firstLine, List.take_append_of_le_length (by rw [(isStamp_facts h).1]; exact Nat.le_refl _),
    List.take_of_length_le (by rw [(isStamp_facts h).1]; exact Nat.le_refl _)]
  exact h

theorem genuine_cons {e : LogEntry} (he : isStamp e.stamp = true) (es : List LogEntry) :
    (logLines (logText (e :: es))).filter stamped =
      firstLine e :: ((splitByte 10 e.message).tail.filter stamped ++ (logLines (logText es)).filter stamped) := by
  rw [logLines_logText, logLines_logText, List.flatMap_cons, entry_lines he, List.filter_append, List.filter_cons_of_pos (firstLine_stamped he)]
  rfl

/-- **C150 (exact).** The lines of the log that begin with a time stamp are, in their order, the first lines of the entries, exactly if no
later line of a message begins with one. -/
theorem C150_exact (es : List LogEntry) (hs : ∀ e ∈ es, isStamp e.stamp = true) :
    (logLines (logText es)).filter stamped = es.map firstLine ↔
      ∀ e ∈ es, ∀ l ∈ (splitByte 10 e.message).tail, stamped l = false := by
  have many : ∀ es : List LogEntry, (∀ e ∈ es, isStamp e.stamp = true) → es.length ≤ ((logLines (logText es)).filter stamped).length := by
    intro es
    induction es with
    | nil => intro _; exact Nat.zero_le _
    | cons e es ih =>
      intro hs
      rw [genuine_cons (hs e (List.mem_cons_self ..)), List.length_cons, List.length_cons, List.length_append]
      have := ih fun x hx => hs x (List.mem_cons_of_mem _ hx)
      omega
  induction es with
  | nil => simp [logText, logLines, splitByte]
  | cons e es ih =>
    have hs' := fun x hx => hs x (List.mem_cons_of_mem e hx)
    rw [genuine_cons (hs e (List.mem_cons_self ..)), List.map_cons]
    constructor
    · intro h
      have h := (List.cons.inj h).2
      have hl := congrArg List.length h
      rw [List.length_append, List.length_map] at hl
      have := many es hs'
      have h0 : (splitByte 10 e.message).tail.filter stamped = [] := List.eq_nil_of_length_eq_zero (by omega)
      rw [h0, List.nil_append] at h
      intro x hx
      rcases List.mem_cons.mp hx with rfl | hx
      · intro l hl
        have := List.filter_eq_nil_iff.mp h0 l hl
        simpa using this
      · exact (ih hs').mp h x hx
    · intro h
      have h0 : (splitByte 10 e.message).tail.filter stamped = [] :=
        List.filter_eq_nil_iff.mpr fun l hl => by simp [h e (List.mem_cons_self ..) l hl]
      rw [h0, List.nil_append, (ih hs').mpr fun x hx => h x (List.mem_cons_of_mem _ hx)]

/-- **C150.** The number of lines: an entry has one, and one more for every newline in what was logged. -/
theorem C150_lines (es : List LogEntry) (hs : ∀ e ∈ es, isStamp e.stamp = true) :
    (logLines (logText es)).length = (es.map fun e => 1 + e.message.count 10).sum := by
  rw [logLines_logText]
  induction es with
  | nil => rfl
  | cons e es ih =>
    have h0 : e.stamp.count 10 = 0 := List.count_eq_zero.mpr (isStamp_facts (hs e (List.mem_cons_self ..))).2.1
    rw [List.flatMap_cons, List.length_append, splitByte_count, List.count_append, h0, ih fun x hx => hs x (List.mem_cons_of_mem _ hx),
      List.map_cons, List.sum_cons]
    omega

/-- **C150 (exact).** An entry is one line of the log exactly if there is no newline in what was logged. -/
theorem C150_one_line (es : List LogEntry) (hs : ∀ e ∈ es, isStamp e.stamp = true) :
    logLines (logText es) = es.map (fun e => e.stamp ++ e.message) ↔ ∀ e ∈ es, (10 : UInt8) ∉ e.message := by
  constructor
  · intro h e he hm
    have : e.stamp ++ e.message ∈ logLines (logText es) := h ▸ List.mem_map_of_mem (f := fun e : LogEntry => e.stamp ++ e.message) he
    rw [logLines_logText] at this
    obtain ⟨x, _, hx⟩ := List.mem_flatMap.mp this
    exact splitByte_not_mem 10 _ _ hx (List.mem_append_right _ hm)
  · intro h
    rw [logLines_logText]
    induction es with
    | nil => rfl
    | cons e es ih =>
      rw [List.flatMap_cons, ih (fun x hx => hs x (List.mem_cons_of_mem _ hx)) fun x hx => h x (List.mem_cons_of_mem _ hx),
        splitByte_of_not_mem]
      · rfl
      · intro hm
        rcases List.mem_append.mp hm with hm | hm
        · exact (isStamp_facts (hs e (List.mem_cons_self ..))).2.1 hm
        · exact h e (List.mem_cons_self ..) hm

def sampleStamp : Bytes := ascii "2026/11/17 00:13:02 "

example : isStamp sampleStamp = true ∧
    logLines (logText [⟨sampleStamp, ascii "a\nb"⟩, ⟨sampleStamp, ascii "c"⟩]) =
      [ascii "2026/11/17 00:13:02 a", ascii "b", ascii "2026/11/17 00:13:02 c"] := by decide +kernel

/-! ### Requests -/

/-- The entries of requests; the time is the request's. -/
def Spec.requestEntries (shown : Userec → Bytes) (st : ServerState) (rs : List (Bytes × Request)) : List LogEntry :=
  rs.flatMap fun p => (requestLog shown st p.2).map fun m => ⟨p.1, m⟩

theorem usersLog_words {r : Request} {m : Bytes} (h : m ∈ usersLog r) : slash ∉ m ∨ (10 : UInt8) ∉ m := by
  unfold usersLog at h
  split at h
  · rename_i u i hp
    have noslash : slash ∉ u ∧ slash ∉ i := by
      unfold parseUserPath at hp
      have := splitByte_not_mem slash r.path
      split at hp
      · rename_i e
        cases hp
        exact ⟨this _ (by simp [e]), List.not_mem_nil⟩
      · rename_i e
        cases hp
        exact ⟨this _ (by simp [e]), this _ (by simp [e])⟩
      · cases hp
    split at h
    · split at h
      · simp only [List.mem_singleton] at h
        subst h
        right
        intro hm
        rcases List.mem_append.mp hm with hm | hm
        · exact absurd hm (by decide +kernel)
        · exact absurd (dec_digits _ _ hm).1 (by decide)
      · cases h
    · split at h
      · cases h
      · simp only [List.mem_singleton] at h
        subst h
        left
        intro hm
        simp only [List.mem_append, List.mem_cons] at hm
        rcases hm with (hm | hm | hm) | hm
        · exact noslash.1 hm
        · exact absurd hm (by decide)
        · exact noslash.2 hm
        · exact absurd hm (by decide +kernel)
  · cases h

theorem tokenLog_words {shown : Userec → Bytes} {st : ServerState} (hq : ∀ u ∈ st.userRecs, (10 : UInt8) ∉ shown u ∧ (10 : UInt8) ∉ u.password)
    {r : Request} {m : Bytes} (h : m ∈ tokenLog shown st r) : (10 : UInt8) ∉ m := by
  unfold tokenLog postTokenLog at h
  split at h
  · rename_i u hu
    have hmem : u ∈ st.userRecs := by
      obtain ⟨a, b, e, _⟩ := (findUserecByID_ok _ _ _).mp hu
      rw [e]; simp
    simp only [List.map_cons, List.map_nil, List.mem_cons, List.not_mem_nil, or_false] at h
    intro hm
    rcases h with rfl | rfl
    · rcases List.mem_append.mp hm with hm | hm
      · exact absurd hm (by decide +kernel)
      · exact (hq u hmem).1 hm
    · rcases List.mem_append.mp hm with hm | hm
      · exact absurd hm (by decide +kernel)
      · exact (hq u hmem).2 hm
  · cases h

theorem requestLog_words {shown : Userec → Bytes} {st : ServerState} (hq : ∀ u ∈ st.userRecs, (10 : UInt8) ∉ shown u ∧ (10 : UInt8) ∉ u.password)
    {r : Request} {m : Bytes} (h : m ∈ requestLog shown st r) : slash ∉ m ∨ (10 : UInt8) ∉ m := by
  have route : ∀ o, m ∈ routeLog shown st r o → slash ∉ m ∨ (10 : UInt8) ∉ m := by
    intro o h
    unfold routeLog at h
    split at h
    · split at h
      · exact Or.inr (tokenLog_words hq h)
      · cases h
    · split at h
      · exact usersLog_words h
      · cases h
    · cases h
  unfold requestLog at h
  split at h
  · cases h
  · split at h
    · split at h
      · cases h
      · exact route _ h
    · split at h
      · cases h
      · exact route _ h

theorem requestEntries_stamps {shown : Userec → Bytes} {st : ServerState} {rs : List (Bytes × Request)} (hs : ∀ p ∈ rs, isStamp p.1 = true) :
    ∀ e ∈ requestEntries shown st rs, isStamp e.stamp = true := by
  intro e he
  obtain ⟨p, hp, he⟩ := List.mem_flatMap.mp he
  obtain ⟨m, _, rfl⟩ := List.mem_map.mp he
  exact hs p hp

/-- **C150.** Whatever is requested: no request writes a line with a time stamp of its own making. (A stamp has slashes in it, and what is
logged of a request are pieces of its path between slashes.) -/
theorem C150_requests (shown : Userec → Bytes) (st : ServerState)
    (hq : ∀ u ∈ st.userRecs, (10 : UInt8) ∉ shown u ∧ (10 : UInt8) ∉ u.password)
    (rs : List (Bytes × Request)) (hs : ∀ p ∈ rs, isStamp p.1 = true) :
    (logLines (logText (requestEntries shown st rs))).filter stamped = (requestEntries shown st rs).map firstLine := by
  rw [C150_exact _ (requestEntries_stamps hs)]
  intro e he l hl
  obtain ⟨p, _, he⟩ := List.mem_flatMap.mp he
  obtain ⟨m, hm, rfl⟩ := List.mem_map.mp he
  rcases requestLog_words hq hm with h | h
  · cases hst : stamped l with
    | false => rfl
    | true => exact absurd (mem_of_splitByte (List.mem_of_mem_tail hl) (stamped_slash hst)) h
  · simp only [splitByte_of_not_mem h, List.tail_cons] at hl
    cases hl

/-- The request `GET /v1/users/a%0Ab/c`. -/
def brokenRequest : Request := ⟨ascii "GET", ascii "/v1/users/a\nb/c", [], [], []⟩

example (shown : Userec → Bytes) : requestLog shown ⟨[], []⟩ brokenRequest = [ascii "a\nb c <nil>"] := by
  have h : ∀ f : Userec → Bytes, requestLog f ⟨[], []⟩ brokenRequest = requestLog (fun _ => []) ⟨[], []⟩ brokenRequest := fun _ => rfl
  rw [h]
  decide +kernel

/-- The claim that a request that is logged adds a line for each message. -/
def Spec.RequestsOneLine : Prop :=
  ∀ (st : ServerState) (rs : List (Bytes × Request)), st.userRecs = [] → (∀ p ∈ rs, isStamp p.1 = true) →
    (logLines (logText (requestEntries (fun _ => []) st rs))).length = (requestEntries (fun _ => []) st rs).length

/-- A newline in the path of a request breaks the line: what follows stands in the log without a time. -/
theorem C150_lines_refuted : ¬ RequestsOneLine := by
  intro h
  have := h ⟨[], []⟩ [(sampleStamp, brokenRequest)] rfl (by decide +kernel)
  revert this
  decide +kernel

/-! ### Calls -/

/-- The names given to a call that are part of the path. -/
def Spec.callNames : Call → List Bytes
  | .readUsers | .readBoards | .addBoard _ => []
  | .readFavourites u => [u]
  | .listArticles b => [b]
  | .listTreasure b ds => b :: ds
  | .readArticle b f => [b, f]
  | .readTreasure b ds f => b :: f :: ds
  | .createArticle b .. => [b]
  | .addRecord b _ => [b]
  | .writeArticle b f _ => [b, f]
  | .appendArticle b f _ => [b, f]
  | .readDraft u d => [u, d]
  | .deleteDraft u d => [u, d]
  | .writeDraft u d _ => [u, d]

theorem newline_fmtC {b : UInt8} {id : Bytes} (h : firstByte id = .ok b) : (10 : UInt8) ∈ fmtC b → (10 : UInt8) ∈ id := by
  intro hm
  rcases fmtC_spec b with ⟨e, _⟩ | ⟨x, y, e, hx, hy, _⟩
  · rw [e, List.mem_singleton] at hm
    cases id with
    | nil => cases h
    | cons c cs =>
      cases h
      rw [hm]
      exact List.mem_cons_self ..
  · rw [e] at hm
    simp only [List.mem_cons, List.not_mem_nil, or_false] at hm
    rcases hm with rfl | rfl
    · exact absurd hx (by decide)
    · exact absurd hy (by decide)

theorem newline_joinSlash (ds : List Bytes) : (10 : UInt8) ∈ joinSlash (ds ++ [[]]) ↔ ∃ d ∈ ds, (10 : UInt8) ∈ d := by
  induction ds with
  | nil => simp [joinSlash]
  | cons d ds ih =>
    cases ds with
    | nil => simp [joinSlash, show ¬ (10 : UInt8) = slash by decide]
    | cons e ds =>
      rw [List.cons_append, List.cons_append, joinSlash, List.mem_append, List.mem_cons, ← List.cons_append, ih]
      simp [show ¬ (10 : UInt8) = slash by decide]

theorem lit_newline : (10 : UInt8) ∉ ascii "/home/" ∧ (10 : UInt8) ∉ ascii "/" ∧ (10 : UInt8) ∉ ascii "/.fav" ∧ (10 : UInt8) ∉ ascii "/buf." ∧
    (10 : UInt8) ∉ ascii "/boards/" ∧ (10 : UInt8) ∉ ascii "/.DIR" ∧ (10 : UInt8) ∉ ascii ".DIR" ∧ (10 : UInt8) ∉ ascii "/man/boards/" ∧
    (10 : UInt8) ∉ ascii "/.PASSWDS" ∧ (10 : UInt8) ∉ ascii "/.BRD" ∧ (10 : UInt8) ∉ ascii "path: " := by decide +kernel

theorem path_newline {home p : Bytes} {op : Call} (h : op.loggedPath home = .ok p) :
    (10 : UInt8) ∈ p ↔ (10 : UInt8) ∈ home ∨ ∃ n ∈ callNames op, (10 : UInt8) ∈ n := by
  obtain ⟨l1, l2, l3, l4, l5, l6, l7, l8, l9, l10, _⟩ := lit_newline
  cases op <;>
    simp only [Call.loggedPath, getPasswdsPath, getBoardPath, getUserFavoritePath, getUserDraftPath, getBoardArticlesDirectoryPath,
      getBoardArticleFilePath, getBoardTreasuresDirectoryPath, getBoardTreasureFilePath, Res.bind_eq_ok] at h <;>
    first
    | (cases h; done)
    | (cases h; simp only [List.mem_append, callNames, l9, l10, List.not_mem_nil, false_and, exists_false]; done)
    | (obtain ⟨b, hb, h⟩ := h
       cases h
       have hf := newline_fmtC hb
       simp only [List.mem_append, callNames, l1, l2, l3, l4, l5, l6, l7, l8, newline_joinSlash, or_false, List.mem_cons, List.not_mem_nil,
         exists_eq_or_imp]
       grind)

/-- The entries of calls. -/
def Spec.callEntries (home : Bytes) (ops : List (Bytes × Call)) : List LogEntry :=
  ops.flatMap fun p => (p.2.log home).map fun m => ⟨p.1, m⟩

theorem callEntries_stamps {home : Bytes} {ops : List (Bytes × Call)} (hs : ∀ p ∈ ops, isStamp p.1 = true) :
    ∀ e ∈ callEntries home ops, isStamp e.stamp = true := by
  intro e he
  obtain ⟨p, hp, he⟩ := List.mem_flatMap.mp he
  obtain ⟨m, _, rfl⟩ := List.mem_map.mp he
  exact hs p hp

/-- The full claim of C150 for calls: the lines with a time stamp are the entries that the program made. -/
def Spec.CallsGenuine : Prop :=
  ∀ (home : Bytes) (ops : List (Bytes × Call)), (∀ p ∈ ops, isStamp p.1 = true) →
    (logLines (logText (callEntries home ops))).filter stamped = (callEntries home ops).map firstLine

/-- C150 is false for calls: a name with a newline and a stamp in it is taken for an entry. -/
theorem C150_refuted : ¬ CallsGenuine := by
  intro h
  have := h (ascii "/bbs") [(sampleStamp, .readFavourites (ascii "A\n2026/11/17 00:13:03 path: /bbs/home/B/B"))] (by decide +kernel)
  revert this
  decide +kernel

/-- C150 for calls: with no newline in the home and in the names, every entry is a line and every line an entry. What is missing: names with
newlines (`C150_refuted`). -/
theorem C150_partial (home : Bytes) (ops : List (Bytes × Call)) (hs : ∀ p ∈ ops, isStamp p.1 = true) (hh : (10 : UInt8) ∉ home)
    (hn : ∀ p ∈ ops, ∀ n ∈ callNames p.2, (10 : UInt8) ∉ n) :
    logLines (logText (callEntries home ops)) = (callEntries home ops).map (fun e => e.stamp ++ e.message) ∧
    (logLines (logText (callEntries home ops))).filter stamped = (callEntries home ops).map firstLine := by
  have none : ∀ e ∈ callEntries home ops, (10 : UInt8) ∉ e.message := by
    intro e he
    obtain ⟨p, hp, he⟩ := List.mem_flatMap.mp he
    obtain ⟨m, hm, rfl⟩ := List.mem_map.mp he
    unfold Call.log at hm
    split at hm
    · rename_i q hq
      simp only [List.mem_singleton] at hm
      subst hm
      intro hm
      rcases List.mem_append.mp hm with hm | hm
      · exact lit_newline.2.2.2.2.2.2.2.2.2.2 hm
      · rcases (path_newline hq).mp hm with hm | ⟨n, hn', hm⟩
        · exact hh hm
        · exact hn p hp n hn' hm
    · cases hm
  refine ⟨(C150_one_line _ (callEntries_stamps hs)).mpr none, (C150_exact _ (callEntries_stamps hs)).mpr ?_⟩
  intro e he l hl
  simp only [splitByte_of_not_mem (none e he), List.tail_cons] at hl
  cases hl

/-- **C150 (exact).** A call that writes a path to the log writes one line, exactly if there is no newline in the home and in its names. -/
theorem C150_call (home stamp : Bytes) (op : Call) (p : Bytes) (hs : isStamp stamp = true) (hp : op.loggedPath home = .ok p) :
    logLines (logText (callEntries home [(stamp, op)])) = [stamp ++ ascii "path: " ++ p] ↔
      (10 : UInt8) ∉ home ∧ ∀ n ∈ callNames op, (10 : UInt8) ∉ n := by
  have e : callEntries home [(stamp, op)] = [⟨stamp, ascii "path: " ++ p⟩] := by
    simp [callEntries, Call.log, hp]
  have h1 := C150_one_line [⟨stamp, ascii "path: " ++ p⟩] (by simpa using hs)
  simp only [List.map_cons, List.map_nil, List.forall_mem_cons, List.mem_append, lit_newline.2.2.2.2.2.2.2.2.2.2, false_or, path_newline hp] at h1
  rw [e, List.append_assoc, h1]
  constructor
  · intro h
    exact ⟨fun x => h.1 (.inl x), fun n hn hx => h.1 (.inr ⟨n, hn, hx⟩)⟩
  · rintro ⟨h, h'⟩
    exact ⟨fun x => x.elim h fun ⟨n, hn, hx⟩ => h' n hn hx, by simp⟩

example : (∀ n ∈ callNames (.readDraft (ascii "SYSOP") (ascii "1")), (10 : UInt8) ∉ n) ∧
    logLines (logText (callEntries (ascii "/bbs") [(sampleStamp, .readDraft (ascii "SYSOP") (ascii "1"))])) =
      [ascii "2026/11/17 00:13:02 path: /bbs/home/S/SYSOP/buf.1"] := by decide +kernel

/-! ## C151: articles in the log -/

theorem intercalate_dec_cons (b : UInt8) (bs : Bytes) : List.intercalate [32] ((b :: bs).map fun b => dec b.toNat) =
    dec b.toNat ++ (bs.map fun b => 32 :: dec b.toNat).flatten := by
  induction bs generalizing b with
  | nil => simp
  | cons c cs ih =>
    have := ih c
    rw [List.map_cons] at this
    rw [List.map_cons, List.map_cons, List.intercalate_cons_cons, this]
    simp

theorem digits_prefix {a b x y : Bytes} (ha : ∀ c ∈ a, c ≠ 32) (hb : ∀ c ∈ b, c ≠ 32) (hx : x = [] ∨ ∃ t, x = 32 :: t)
    (hy : y = [] ∨ ∃ t, y = 32 :: t) (h : a ++ x = b ++ y) : a = b ∧ x = y := by
  have tw : ∀ a x : Bytes, (∀ c ∈ a, c ≠ 32) → (x = [] ∨ ∃ t, x = 32 :: t) → (a ++ x).takeWhile (· != 32) = a := by
    intro a x ha hx
    rw [List.takeWhile_append_of_pos (fun c hc => by simpa using ha c hc)]
    rcases hx with rfl | ⟨t, rfl⟩ <;> simp
  have e : a = b := by rw [← tw a x ha hx, h, tw b y hb hy]
  subst e
  exact ⟨rfl, List.append_cancel_left h⟩

theorem spaced_injective (as bs : Bytes) (h : (as.map fun b => (32 : UInt8) :: dec b.toNat).flatten = (bs.map fun b => 32 :: dec b.toNat).flatten) :
    as = bs := by
  have nosp : ∀ n, ∀ c ∈ dec n, c ≠ 32 := fun n c hc e => by subst e; exact absurd (dec_digits _ _ hc).1 (by decide)
  have starts : ∀ l : Bytes, (l.map fun b => (32 : UInt8) :: dec b.toNat).flatten = [] ∨
      ∃ t, (l.map fun b => (32 : UInt8) :: dec b.toNat).flatten = 32 :: t := by
    intro l
    cases l with
    | nil => exact .inl rfl
    | cons c cs => exact .inr ⟨_, rfl⟩
  induction as generalizing bs with
  | nil =>
    cases bs with
    | nil => rfl
    | cons b bs => simp at h
  | cons a as ih =>
    cases bs with
    | nil => simp at h
    | cons b bs =>
      simp only [List.map_cons, List.flatten_cons, List.cons_append, List.cons.injEq, true_and] at h
      obtain ⟨h1, h2⟩ := digits_prefix (nosp _) (nosp _) (starts as) (starts bs) h
      rw [ih bs h2, UInt8.toNat_inj.mp (dec_injective h1)]

/-- **C151.** What the log says of an article says all of it. -/
theorem C151_readable (a b : Bytes) (h : printBytes a = printBytes b) : a = b := by
  have h := List.append_cancel_right (List.cons.inj h).2
  cases a with
  | nil =>
    cases b with
    | nil => rfl
    | cons b bs =>
      rw [intercalate_dec_cons] at h
      have := List.append_eq_nil_iff.mp h.symm
      exact absurd this.1 (dec_ne_nil _)
  | cons a as =>
    cases b with
    | nil =>
      rw [intercalate_dec_cons] at h
      have := List.append_eq_nil_iff.mp h
      exact absurd this.1 (dec_ne_nil _)
    | cons b bs =>
      rw [intercalate_dec_cons, intercalate_dec_cons] at h
      exact spaced_injective _ _ (by simpa using congrArg (32 :: ·) h)

example : printBytes (ascii "Hi\n") = ascii "[72 105 10]" := by decide +kernel

/-- **C151.** Writing to the log changes no answer. -/
theorem andThen_result (m : Logged α) (f : α → Logged β) : (m.andThen f).result = m.result >>= fun a => (f a).result := by
  unfold Logged.andThen
  split <;> rename_i h <;> rw [h] <;> rfl

theorem articleLogged_result (db : DB) (fs : FS) (board file : Bytes) :
    (db.boardArticleCommentsLogged fs board file).result = db.boardArticleComments fs board file := by
  rw [DB.boardArticleCommentsLogged, andThen_result, DB.boardArticleComments]
  congr
  funext t
  rw [andThen_result, Logged.quiet]
  cases articleComments board file t <;> rfl

theorem boardLoop_result (db : DB) (fs : FS) (board user : Bytes) (ars : List FileHeader) :
    (db.boardUserCommentLoopLogged fs board user ars).result = db.boardUserCommentLoop fs board user ars := by
  induction ars with
  | nil => rfl
  | cons ar ars ih =>
    rw [DB.boardUserCommentLoopLogged, andThen_result, articleLogged_result, DB.boardUserCommentLoop]
    congr
    funext crs
    rw [andThen_result, ih]
    rfl

theorem boardLogged_result (db : DB) (c : Codec) (fs : FS) (board user : Bytes) :
    (db.boardUserCommentsLogged c fs board user).result = db.boardUserComments c fs board user := by
  rw [DB.boardUserCommentsLogged, andThen_result, DB.boardUserComments]
  congr
  funext ars
  exact boardLoop_result ..

theorem userLoop_result (db : DB) (c : Codec) (fs : FS) (user : Bytes) (bs : List BoardHeader) :
    (db.userCommentLoopLogged c fs user bs).result = db.userCommentLoop c fs user bs := by
  induction bs with
  | nil => rfl
  | cons b bs ih =>
    rw [DB.userCommentLoopLogged, DB.userCommentLoop]
    split
    · exact ih
    · rw [andThen_result, boardLogged_result]
      congr
      funext ucr
      rw [andThen_result, ih]
      rfl

/-- **C151.** Writing to the log changes no answer. -/
theorem C151_same (db : DB) (c : Codec) (fs : FS) (user : Bytes) :
    (db.userCommentsLogged c fs user).result = db.userComments c fs user := by
  rw [DB.userCommentsLogged, andThen_result, DB.userComments]
  congr
  funext bs
  exact userLoop_result ..

/-! ### Which articles -/

/-- The comments can be read: the search goes on after this article. -/
def Spec.readsOn (db : DB) (fs : FS) (board : Bytes) (r : FileHeader) : Bool :=
  match db.boardArticleComments fs board r.filename with
  | .ok _ => true
  | _ => false

/-- The text of an article with more than one comment. -/
def Spec.revealed (db : DB) (fs : FS) (board : Bytes) (r : FileHeader) : List Bytes :=
  match db.readBoardArticleFile fs board r.filename, db.boardArticleComments fs board r.filename with
  | .ok t, .ok crs => if 1 < crs.length then [t] else []
  | _, _ => []

theorem article_texts (db : DB) (fs : FS) (board : Bytes) (r : FileHeader) :
    (db.boardArticleCommentsLogged fs board r.filename).texts = revealed db fs board r := by
  unfold DB.boardArticleCommentsLogged revealed Logged.andThen Logged.quiet DB.boardArticleComments
  cases db.readBoardArticleFile fs board r.filename with
  | ok t =>
    simp only [Res.ok_bind, List.nil_append]
    cases articleComments board r.filename t <;> rfl
  | err e => rfl
  | panic => rfl
  | diverge => rfl

/-- **C151 (exact).** Searching a board, whomever it is for, the texts of the articles with more than one comment are written to the log, up
to the first article that cannot be read. -/
theorem C151_board (db : DB) (fs : FS) (board user : Bytes) (ars : List FileHeader) :
    (db.boardUserCommentLoopLogged fs board user ars).texts = (ars.takeWhile (readsOn db fs board)).flatMap (revealed db fs board) := by
  induction ars with
  | nil => rfl
  | cons ar ars ih =>
    rw [DB.boardUserCommentLoopLogged, Logged.andThen, articleLogged_result, article_texts]
    have no : readsOn db fs board ar = false → revealed db fs board ar = [] := by
      intro h
      unfold readsOn at h
      unfold revealed
      split
      · rename_i h'; rw [h'] at h; cases h
      · rfl
    split
    · rename_i crs h
      have h1 : readsOn db fs board ar = true := by simp [readsOn, h]
      rw [List.takeWhile_cons_of_pos h1, List.flatMap_cons, ← ih]
      refine congrArg (revealed db fs board ar ++ ·) ?_
      unfold Logged.andThen Logged.quiet
      split <;> simp
    all_goals
      rename_i h
      have h1 : readsOn db fs board ar = false := by simp [readsOn, h]
      rw [List.takeWhile_cons_of_neg (by simp [h1]), no h1]
      rfl

theorem boardLogged_texts (db : DB) (c : Codec) (fs : FS) (board user : Bytes) (ars : List FileHeader)
    (h : db.readArticleRecords c fs board = .ok ars) :
    (db.boardUserCommentsLogged c fs board user).texts = (ars.takeWhile (readsOn db fs board)).flatMap (revealed db fs board) := by
  rw [DB.boardUserCommentsLogged, Logged.andThen, Logged.quiet, h]
  exact C151_board ..

/-- **C151.** The search writes the same texts to the log, whomever it is for. -/
theorem C151_anyone (db : DB) (c : Codec) (fs : FS) (user user' : Bytes) :
    (db.userCommentsLogged c fs user).texts = (db.userCommentsLogged c fs user').texts := by
  have done : ∀ (α β : Type) (m : Logged α) (f : α → Logged β), (∀ a, (f a).texts = []) → (m.andThen f).texts = m.texts := by
    intro α β m f hf
    unfold Logged.andThen
    split <;> simp [hf]
  -- both searches read the same, so they end at the same place
  have good : ∀ board ars, (∃ x, db.boardUserCommentLoop fs board user ars = .ok x) ↔ ∃ x, db.boardUserCommentLoop fs board user' ars = .ok x := by
    intro board ars
    induction ars with
    | nil => exact ⟨fun _ => ⟨_, rfl⟩, fun _ => ⟨_, rfl⟩⟩
    | cons ar ars ih =>
      simp only [DB.boardUserCommentLoop, Res.bind_eq_ok]
      constructor
      · rintro ⟨x, crs, h1, rest, h2, h3⟩
        obtain ⟨y, hy⟩ := ih.mp ⟨rest, h2⟩
        exact ⟨_, crs, h1, y, hy, rfl⟩
      · rintro ⟨x, crs, h1, rest, h2, h3⟩
        obtain ⟨y, hy⟩ := ih.mpr ⟨rest, h2⟩
        exact ⟨_, crs, h1, y, hy, rfl⟩
  have goodB : ∀ board, (∃ x, db.boardUserComments c fs board user = .ok x) ↔ ∃ x, db.boardUserComments c fs board user' = .ok x := by
    intro board
    simp only [DB.boardUserComments, Res.bind_eq_ok]
    constructor
    · rintro ⟨x, ars, h1, h2⟩
      obtain ⟨y, hy⟩ := (good board ars).mp ⟨x, h2⟩
      exact ⟨y, ars, h1, hy⟩
    · rintro ⟨x, ars, h1, h2⟩
      obtain ⟨y, hy⟩ := (good board ars).mpr ⟨x, h2⟩
      exact ⟨y, ars, h1, hy⟩
  have textsB : ∀ board, (db.boardUserCommentsLogged c fs board user).texts = (db.boardUserCommentsLogged c fs board user').texts := by
    intro board
    cases h : db.readArticleRecords c fs board with
    | ok ars => rw [boardLogged_texts _ _ _ _ _ _ h, boardLogged_texts _ _ _ _ _ _ h]
    | err e => simp [DB.boardUserCommentsLogged, Logged.andThen, Logged.quiet, h]
    | panic => simp [DB.boardUserCommentsLogged, Logged.andThen, Logged.quiet, h]
    | diverge => simp [DB.boardUserCommentsLogged, Logged.andThen, Logged.quiet, h]
  have step : ∀ (β : Type) (m m' : Logged (List UserComment)) (f f' : List UserComment → Logged β), m.texts = m'.texts →
      ((∃ x, m.result = .ok x) ↔ ∃ x, m'.result = .ok x) → (∀ a b, (f a).texts = (f' b).texts) →
      (m.andThen f).texts = (m'.andThen f').texts := by
    intro β m m' f f' h1 h2 h3
    unfold Logged.andThen
    cases hm : m.result with
    | ok a =>
      obtain ⟨b, hb⟩ := h2.mp ⟨a, hm⟩
      simp only [hb, h1, h3 a b]
    | _ =>
      cases hm' : m'.result with
      | ok b => obtain ⟨a, ha⟩ := h2.mpr ⟨b, hm'⟩; rw [hm] at ha; cases ha
      | _ => exact h1
  have loop : ∀ bs, (db.userCommentLoopLogged c fs user bs).texts = (db.userCommentLoopLogged c fs user' bs).texts := by
    intro bs
    induction bs with
    | nil => rfl
    | cons b bs ih =>
      rw [DB.userCommentLoopLogged, DB.userCommentLoopLogged]
      split
      · exact ih
      · refine step _ _ _ _ _ (textsB _) ?_ ?_
        · rw [boardLogged_result, boardLogged_result]
          exact goodB _
        · intro x y
          rw [done _ _ _ _ (fun _ => rfl), done _ _ _ _ (fun _ => rfl)]
          exact ih
  rw [DB.userCommentsLogged, DB.userCommentsLogged]
  unfold Logged.andThen Logged.quiet
  cases db.readBoardRecords c fs with
  | ok bs => simp only [loop bs]
  | _ => rfl

/-- The articles on the boards that are searched with more than one comment. -/
def Spec.discussed (boards : List BoardHeader) (index : Bytes → List FileHeader) (content : Bytes → Bytes → Bytes) : List Bytes :=
  (boards.filter (fun b => b.brdName ≠ ascii "ALLPOST")).flatMap fun b =>
    ((index b.brdName).map fun r => content b.brdName r.filename).filter fun t => 1 < ((textLines t).filterMap lineComment).length

/-- **C151 (exact).** A search that reaches its end writes to the log the text of every article with more than one comment — of all boards but
`ALLPOST`, hidden ones as well. -/
theorem C151_exact (db : DB) (c : Codec) (fs : FS) (boards : List BoardHeader)
    (index : Bytes → List FileHeader) (content : Bytes → Bytes → Bytes) (user : Bytes)
    (h : OnDisk db c fs boards index) (hn : ∀ b ∈ boards, b.brdName ≠ [])
    (hc : ∀ b ∈ boards, b.brdName ≠ ascii "ALLPOST" → ∀ r ∈ index b.brdName,
      fs.readFile db.cwd (articlePath db.home b.brdName r.filename) = .ok (content b.brdName r.filename))
    (hl : ∀ b ∈ boards, b.brdName ≠ ascii "ALLPOST" → ∀ r ∈ index b.brdName,
      (∀ l ∈ rawLines (content b.brdName r.filename), l.length < 65536) ∧
      (∀ l ∈ textLines (content b.brdName r.filename), Readable l)) :
    (db.userCommentsLogged c fs user).texts = discussed boards index content := by
  have inner : ∀ b ∈ boards, b.brdName ≠ ascii "ALLPOST" → ∀ rs : List FileHeader, (∀ r ∈ rs, r ∈ index b.brdName) →
      ((rs.map persisted).takeWhile (readsOn db fs b.brdName)).flatMap (revealed db fs b.brdName) =
        (rs.map fun r => content b.brdName r.filename).filter fun t => 1 < ((textLines t).filterMap lineComment).length := by
    intro b hb hsk rs
    induction rs with
    | nil => intro _; rfl
    | cons r rs ih =>
      intro hm
      have hr := hm r (by simp)
      have ih := ih (fun x hx => hm x (by simp [hx]))
      obtain ⟨h1, h2⟩ := hl b hb hsk r hr
      have hac := C35_long_lines_partial b.brdName r.filename (content b.brdName r.filename) h1
      have hac : articleComments b.brdName r.filename (content b.brdName r.filename) =
          .ok (numbered b.brdName r.filename ((textLines (content b.brdName r.filename)).filterMap lineComment)) := by
        rcases hac with hac | ⟨⟨l, hl1, hl2⟩, _⟩
        · exact hac.2
        · exact absurd (h2 l hl1) hl2
      have hread : db.readBoardArticleFile fs b.brdName (persisted r).filename = .ok (content b.brdName r.filename) := by
        show db.readBoardArticleFile fs b.brdName r.filename = _
        rw [DB.readBoardArticleFile, articlePath_of _ (hn b hb), Res.ok_bind, hc b hb hsk r hr]
      have hcom : db.boardArticleComments fs b.brdName (persisted r).filename =
          .ok (numbered b.brdName r.filename ((textLines (content b.brdName r.filename)).filterMap lineComment)) := by
        rw [DB.boardArticleComments, hread, Res.ok_bind]
        exact hac
      rw [List.map_cons, List.takeWhile_cons_of_pos (by simp [readsOn, hcom]), List.flatMap_cons, ih, List.map_cons, List.filter_cons, revealed,
        hread, hcom]
      simp only [numbered, List.length_mapIdx, decide_eq_true_eq]
      split <;> rfl
  have key : ∀ bs : List BoardHeader, (∀ b ∈ bs, b ∈ boards) →
      (db.userCommentLoopLogged c fs user bs).texts = discussed bs index content := by
    intro bs
    induction bs with
    | nil => intro _; rfl
    | cons b bs ih =>
      intro hm
      have hb := hm b (by simp)
      have ih := ih (fun x hx => hm x (by simp [hx]))
      unfold DB.userCommentLoopLogged
      by_cases hsk : b.brdName = ascii "ALLPOST"
      · rw [if_pos (by simp [DB.shouldSkip, hsk]), ih]
        simp [discussed, hsk]
      · rw [if_neg (by simp [DB.shouldSkip, hsk])]
        have hars := readArticleRecords_of (hn b hb) (h.indexFile b hb hsk (hn b hb)) (h.indexStorable b hb)
        have hgood : ∃ x, (db.boardUserCommentsLogged c fs b.brdName user).result = .ok x := by
          rw [boardLogged_result, DB.boardUserComments, hars, Res.ok_bind]
          suffices ∀ rs : List FileHeader, (∀ r ∈ rs, readsOn db fs b.brdName (persisted r) = true) →
              ∃ x, db.boardUserCommentLoop fs b.brdName user (rs.map persisted) = .ok x by
            refine this _ ?_
            intro r hr
            obtain ⟨h1, h2⟩ := hl b hb hsk r hr
            have hac := C35_long_lines_partial b.brdName r.filename (content b.brdName r.filename) h1
            rcases hac with hac | ⟨⟨l, hl1, hl2⟩, _⟩
            · have : db.boardArticleComments fs b.brdName (persisted r).filename =
                  .ok (numbered b.brdName r.filename ((textLines (content b.brdName r.filename)).filterMap lineComment)) := by
                show db.boardArticleComments fs b.brdName r.filename = _
                rw [DB.boardArticleComments, DB.readBoardArticleFile, articlePath_of _ (hn b hb), Res.ok_bind, hc b hb hsk r hr, Res.ok_bind]
                exact hac.2
              simp [readsOn, this]
            · exact absurd (h2 l hl1) hl2
          intro rs
          induction rs with
          | nil => intro _; exact ⟨_, rfl⟩
          | cons r rs ih' =>
            intro hrs
            obtain ⟨y, hy⟩ := ih' fun x hx => hrs x (by simp [hx])
            have h1 := hrs r (by simp)
            unfold readsOn at h1
            split at h1
            · rename_i crs hcrs
              rw [List.map_cons, DB.boardUserCommentLoop, hcrs, Res.ok_bind, hy]
              exact ⟨_, rfl⟩
            · cases h1
        obtain ⟨x, hx⟩ := hgood
        have e : discussed (b :: bs) index content =
            ((index b.brdName).map fun r => content b.brdName r.filename).filter (fun t => 1 < ((textLines t).filterMap lineComment).length) ++
              discussed bs index content := by
          simp [discussed, hsk]
        rw [e, ← inner b hb hsk _ (fun _ hr => hr), ← ih, ← boardLogged_texts db c fs b.brdName user _ hars]
        conv => lhs; unfold Logged.andThen
        simp only [hx]
        refine congrArg ((db.boardUserCommentsLogged c fs b.brdName user).texts ++ ·) ?_
        split <;> simp [Logged.quiet]
  rw [DB.userCommentsLogged, Logged.andThen, Logged.quiet, readBoardRecords_of h.boardList h.storable]
  exact key boards (fun _ hb => hb)

/-- The full claim of C151: a search leaves no article in the log. -/
def Spec.SearchTellsNothing : Prop := ∀ (db : DB) (c : Codec) (fs : FS) (user : Bytes), (db.userCommentsLogged c fs user).texts = []

def pairContent : Bytes := ascii "hi" ++ 10 :: ascii "Push tom: a 02/28 23:59" ++ 10 :: ascii "Push ann: b 02/28 23:59"

/-- The disk of `listFS` with a second comment. -/
def pairFS : FS := listFS.set [ascii "bbs", ascii "boards", ascii "S", ascii "S", ascii "M.1.A.1"] (.file pairContent)

def pairContents (_ f : Bytes) : Bytes := if f = ascii "M.1.A.1" then pairContent else []

theorem pair_onDisk : OnDisk sampleDB asciiCodec pairFS listBoards listIndex where
  boardList := by
    have h : pairFS.lookup sampleDB.cwd (sampleDB.home ++ ascii "/.BRD") = .ok [ascii "bbs", ascii ".BRD"] := by
      decide +kernel
    rw [FS.readFile_of h]
    rfl
  storable := list_onDisk.storable
  indexFile := by
    intro b hb _ _
    simp only [listBoards, List.mem_cons, List.not_mem_nil, or_false] at hb
    rcases hb with rfl | rfl | rfl
    · left
      have h : pairFS.lookup sampleDB.cwd (indexPath sampleDB.home (ascii "S")) =
          .ok [ascii "bbs", ascii "boards", ascii "S", ascii "S", ascii ".DIR"] := by decide +kernel
      show pairFS.readFile sampleDB.cwd (indexPath sampleDB.home (ascii "S")) = _
      rw [FS.readFile_of h]
      rfl
    · right
      exact ⟨by decide +kernel, by decide⟩
    · right
      exact ⟨by decide +kernel, by decide⟩
  noIndex := list_onDisk.noIndex
  indexStorable := list_onDisk.indexStorable

/-- A test for `Readable`. -/
def readableTest (l : Bytes) : Bool :=
  match parseUserComment (filterANSI l) with
  | .ok _ => true
  | .err e => e = errNotUserComment
  | _ => false

theorem readable_of_test {l : Bytes} (h : readableTest l = true) : Readable l := by
  unfold readableTest at h
  split at h
  · rename_i e; exact Or.inl ⟨_, e⟩
  · rename_i e; rw [decide_eq_true_iff] at h; exact Or.inr (h ▸ e)
  · cases h

theorem pair_readable : ∀ b ∈ listBoards, b.brdName ≠ ascii "ALLPOST" → ∀ r ∈ listIndex b.brdName,
    (∀ l ∈ rawLines (pairContents b.brdName r.filename), l.length < 65536) ∧
    (∀ l ∈ textLines (pairContents b.brdName r.filename), readableTest l = true) := by decide +kernel

theorem pair_texts (user : Bytes) : (sampleDB.userCommentsLogged asciiCodec pairFS user).texts = [pairContent] := by
  rw [C151_exact sampleDB asciiCodec pairFS listBoards listIndex pairContents user pair_onDisk (by decide) (by decide +kernel)
    (fun b hb hsk r hr => ⟨(pair_readable b hb hsk r hr).1, fun l hl => readable_of_test ((pair_readable b hb hsk r hr).2 l hl)⟩)]
  decide +kernel

/-- C151 is false: whoever is asked about, an article with two comments is in the log. -/
theorem C151_refuted : ¬ SearchTellsNothing := by
  intro h
  have := h sampleDB asciiCodec pairFS (ascii "nobody")
  rw [pair_texts] at this
  cases this

/-- C151 where no article has more than one comment. What is missing: the others (`C151_exact`, `C151_refuted`). -/
theorem C151_partial (db : DB) (c : Codec) (fs : FS) (user : Bytes)
    (h : ∀ board file crs, db.boardArticleComments fs board file = .ok crs → crs.length ≤ 1) :
    (db.userCommentsLogged c fs user).texts = [] := by
  have ht : ∀ board r, revealed db fs board r = [] := by
    intro board r
    unfold revealed
    split
    · rename_i hc
      rw [if_neg (by have := h _ _ _ hc; omega)]
    · rfl
  have hb : ∀ board, (db.boardUserCommentsLogged c fs board user).texts = [] := by
    intro board
    cases ha : db.readArticleRecords c fs board with
    | ok ars =>
      rw [boardLogged_texts _ _ _ _ _ _ ha]
      exact List.flatMap_eq_nil_iff.mpr fun r _ => ht board r
    | _ => simp [DB.boardUserCommentsLogged, Logged.andThen, Logged.quiet, ha]
  have step : ∀ (β γ : Type) (m : Logged β) (f : β → Logged γ), m.texts = [] → (∀ a, (f a).texts = []) → (m.andThen f).texts = [] := by
    intro β γ m f h1 h2
    unfold Logged.andThen
    split <;> simp [h1, h2]
  have hu : ∀ bs, (db.userCommentLoopLogged c fs user bs).texts = [] := by
    intro bs
    induction bs with
    | nil => rfl
    | cons b bs ih =>
      rw [DB.userCommentLoopLogged]
      split
      · exact ih
      · exact step _ _ _ _ (hb _) fun _ => step _ _ _ _ ih fun _ => rfl
  exact step _ _ _ _ rfl hu

/-- Non-vacuity of `C151_partial`: a disk without boards. -/
example : ∀ board file crs, sampleDB.boardArticleComments ⟨[]⟩ board file = .ok crs → crs.length ≤ 1 := by
  intro board file crs h
  rw [DB.boardArticleComments, Res.bind_eq_ok] at h
  obtain ⟨t, h, _⟩ := h
  rw [DB.readBoardArticleFile, Res.bind_eq_ok] at h
  obtain ⟨p, _, h⟩ := h
  obtain ⟨l, _, h2⟩ := FS.readFile_ok h
  unfold FS.get at h2
  split at h2 <;> cases h2

end Verif
