import Verif.Model.ToolMain
/-!
# C73: the options of the command-line tool
-/

namespace Verif

/-- One or two dashes. -/
def Spec.Dashes (d : Bytes) : Prop := d = ascii "-" ∨ d = ascii "--"

/-- The argument asks for help. -/
def Spec.AsksHelp (s : Bytes) : Prop :=
  ∃ d h t, Dashes d ∧ (h = ascii "h" ∨ h = ascii "help") ∧ s = d ++ h ++ t ∧ (t = [] ∨ ∃ x, t = ascii "=" ++ x)

/-- The argument names one of the two options, with or without a value. -/
def Spec.NamesOption (s : Bytes) : Prop :=
  ∃ d n t, Dashes d ∧ (n = ascii "driver" ∨ n = ascii "bbshome") ∧ s = d ++ n ++ t ∧ (t = [] ∨ ∃ x, t = ascii "=" ++ x)

/-- The argument is an option at all: a dash and something more. -/
def Spec.LooksLikeOption (s : Bytes) : Prop := ∃ c cs, s = ascii "-" ++ c :: cs

/-- What a command line means, starting from the settings `o`. -/
inductive Spec.Flags : ToolOptions → List Bytes → FlagResult → Prop
  /-- nothing left -/
  | done {o} : Flags o [] (.parsed o [])
  /-- the first argument that is no option ends the options and belongs to the rest -/
  | stop {o s rest} : ¬ LooksLikeOption s → Flags o (s :: rest) (.parsed o (s :: rest))
  /-- `--` ends the options -/
  | dashes {o rest} : Flags o (ascii "--" :: rest) (.parsed o rest)
  | homeEq {o d v rest r} : Dashes d → Flags { o with home := v } rest r → Flags o ((d ++ ascii "bbshome" ++ ascii "=" ++ v) :: rest) r
  | homeNext {o d v rest r} : Dashes d → Flags { o with home := v } rest r → Flags o ((d ++ ascii "bbshome") :: v :: rest) r
  | homeLast {o d} : Dashes d → Flags o [d ++ ascii "bbshome"] .bad
  | driverEq {o d v rest r} : Dashes d → Flags { o with driver := v } rest r → Flags o ((d ++ ascii "driver" ++ ascii "=" ++ v) :: rest) r
  | driverNext {o d v rest r} : Dashes d → Flags { o with driver := v } rest r → Flags o ((d ++ ascii "driver") :: v :: rest) r
  | driverLast {o d} : Dashes d → Flags o [d ++ ascii "driver"] .bad
  | help {o s rest} : AsksHelp s → Flags o (s :: rest) .help
  /-- every other option is wrong -/
  | bad {o s rest} : LooksLikeOption s → s ≠ ascii "--" → ¬ NamesOption s → ¬ AsksHelp s → Flags o (s :: rest) .bad

open Spec

/-! ## Names and values -/

theorem dropWhile_split {p : UInt8 → Bool} : ∀ {l : Bytes} {x : UInt8} {v : Bytes}, l.dropWhile p = x :: v →
    l = l.takeWhile p ++ x :: v ∧ p x = false := by
  intro l
  induction l with
  | nil => intro x v h; cases h
  | cons a l ih =>
    intro x v h
    rw [List.dropWhile_cons] at h
    rw [List.takeWhile_cons]
    by_cases ha : p a = true
    · rw [if_pos ha] at h
      obtain ⟨h1, h2⟩ := ih h
      rw [if_pos ha]
      exact ⟨by rw [List.cons_append, ← h1], h2⟩
    · rw [if_neg ha] at h
      rw [if_neg ha]
      injection h with e1 e2
      subst e1; subst e2
      exact ⟨rfl, by simpa using ha⟩

theorem takeWhile_none {p : UInt8 → Bool} {l : Bytes} (h : l.dropWhile p = []) : l.takeWhile p = l := by
  have := List.takeWhile_append_dropWhile (p := p) (l := l)
  rw [h, List.append_nil] at this
  exact this

theorem not_mem_takeWhile' (x : UInt8) {l : Bytes} : x ∉ l.takeWhile (· ≠ x) := by
  induction l with
  | nil => simp
  | cons a l ih =>
    rw [List.takeWhile_cons]
    split
    · rename_i h
      simp only [List.mem_cons, not_or]
      exact ⟨fun e => by simp [← e] at h, ih⟩
    · simp

/-- `splitFlag` cuts at the first `=` behind the first byte. -/
theorem splitFlag_spec (c : UInt8) (cs : Bytes) :
    (0x3D ∉ cs ∧ splitFlag (c :: cs) = (c :: cs, none)) ∨
    (∃ n v, 0x3D ∉ n ∧ cs = n ++ 0x3D :: v ∧ splitFlag (c :: cs) = (c :: n, some v)) := by
  simp only [splitFlag]
  cases h : cs.dropWhile (· ≠ 0x3D) with
  | nil =>
    left
    refine ⟨?_, rfl⟩
    intro hm
    have := takeWhile_none h
    rw [← this] at hm
    exact not_mem_takeWhile' _ hm
  | cons x v =>
    right
    obtain ⟨h1, h2⟩ := dropWhile_split h
    have hx : x = 0x3D := by simpa using h2
    subst hx
    refine ⟨_, v, ?_, h1, rfl⟩
    intro hm
    exact not_mem_takeWhile' _ hm

theorem eq_split {n v n' v' : Bytes} (hn : 0x3D ∉ n) (hn' : 0x3D ∉ n') (h : n ++ 0x3D :: v = n' ++ 0x3D :: v') : n = n' ∧ v = v' := by
  induction n generalizing n' with
  | nil =>
    cases n' with
    | nil => exact ⟨rfl, by simpa using h⟩
    | cons a as =>
      simp only [List.nil_append, List.cons_append, List.cons.injEq] at h
      exact absurd (by simp [h.1]) hn'
  | cons a as ih =>
    cases n' with
    | nil =>
      simp only [List.nil_append, List.cons_append, List.cons.injEq] at h
      exact absurd (by simp [h.1]) hn
    | cons b bs =>
      simp only [List.cons_append, List.cons.injEq] at h
      obtain ⟨e1, e2⟩ := ih (fun hm => hn (by simp [hm])) (fun hm => hn' (by simp [hm])) h.2
      exact ⟨by rw [h.1, e1], e2⟩

/-- A name without `=`. -/
theorem splitFlag_bare {c : UInt8} {cs : Bytes} (h : 0x3D ∉ cs) : splitFlag (c :: cs) = (c :: cs, none) := by
  rcases splitFlag_spec c cs with ⟨_, h⟩ | ⟨n, v, _, h2, _⟩
  · exact h
  · exact absurd (by rw [h2]; simp) h

/-- A name with a value. -/
theorem splitFlag_value {c : UInt8} {n v : Bytes} (h : 0x3D ∉ n) : splitFlag (c :: (n ++ 0x3D :: v)) = (c :: n, some v) := by
  rcases splitFlag_spec c (n ++ 0x3D :: v) with ⟨h1, _⟩ | ⟨n', v', h1, h2, h3⟩
  · exact absurd (by simp) h1
  · obtain ⟨e1, e2⟩ := eq_split h h1 h2
    subst e1; subst e2
    exact h3

theorem parseFlags_cons (o : ToolOptions) (s : Bytes) (rest : List Bytes) : parseFlags o (s :: rest) =
    match s with
    | 0x2D :: c :: cs =>
      if c = 0x2D ∧ cs = [] then .parsed o rest
      else
        let name := if c = 0x2D then cs else c :: cs
        if name.head? = some 0x2D ∨ name.head? = some 0x3D then .bad
        else
          let nv := splitFlag name
          match o.assign nv.1 [] with
          | none => if nv.1 = ascii "help" ∨ nv.1 = ascii "h" then .help else .bad
          | some _ =>
            match nv.2 with
            | some v => parseFlags ((o.assign nv.1 v).getD o) rest
            | none =>
              match rest with
              | [] => .bad
              | v :: rest' => parseFlags ((o.assign nv.1 v).getD o) rest'
    | _ => .parsed o (s :: rest) := by
  conv => lhs; unfold parseFlags
  split
  · rfl
  · rename_i hx
    split
    · exact absurd rfl (hx _ _)
    · rfl

/-- Dashes followed by a proper name. -/
theorem parseFlags_name (o : ToolOptions) {d : Bytes} (hd : Dashes d) (a : UInt8) (as : Bytes) (ha : a ≠ 0x2D) (ha' : a ≠ 0x3D)
    (rest : List Bytes) : parseFlags o ((d ++ a :: as) :: rest) =
      match o.assign (splitFlag (a :: as)).1 [] with
      | none => if (splitFlag (a :: as)).1 = ascii "help" ∨ (splitFlag (a :: as)).1 = ascii "h" then .help else .bad
      | some _ =>
        match (splitFlag (a :: as)).2 with
        | some v => parseFlags ((o.assign (splitFlag (a :: as)).1 v).getD o) rest
        | none =>
          match rest with
          | [] => .bad
          | v :: rest' => parseFlags ((o.assign (splitFlag (a :: as)).1 v).getD o) rest' := by
  have h1 : ¬ ((a :: as).head? = some 0x2D ∨ (a :: as).head? = some 0x3D) := by
    simp [ha, ha']
  rcases hd with rfl | rfl
  · show parseFlags o ((0x2D :: a :: as) :: rest) = _
    rw [parseFlags_cons]
    simp only [if_neg (show ¬ (a = 0x2D ∧ as = []) from fun h => ha h.1), if_neg ha, if_neg h1]
  · show parseFlags o ((0x2D :: 0x2D :: a :: as) :: rest) = _
    rw [parseFlags_cons]
    simp only [List.cons_ne_nil, and_false, if_false, if_true, if_neg h1]

theorem assign_none {o : ToolOptions} {n : Bytes} (v : Bytes) (h1 : n ≠ ascii "driver") (h2 : n ≠ ascii "bbshome") : o.assign n v = none := by
  unfold ToolOptions.assign
  rw [if_neg h1, if_neg h2]

theorem Flags.holds {o : ToolOptions} {argv : List Bytes} {r : FlagResult} (h : Flags o argv r) : parseFlags o argv = r := by
  have hb : ascii "bbshome" = 0x62 :: ascii "bshome" := rfl
  have hdr : ascii "driver" = 0x64 :: ascii "river" := rfl
  have a1 : ∀ o : ToolOptions, ∀ v, o.assign (0x62 :: ascii "bshome") v = some { o with home := v } := fun o v => rfl
  have a2 : ∀ o : ToolOptions, ∀ v, o.assign (0x64 :: ascii "river") v = some { o with driver := v } := fun o v => rfl
  have s1 : splitFlag (0x62 :: ascii "bshome") = (0x62 :: ascii "bshome", none) := splitFlag_bare (by decide)
  have s2 : splitFlag (0x64 :: ascii "river") = (0x64 :: ascii "river", none) := splitFlag_bare (by decide)
  have s3 : ∀ v, splitFlag (0x62 :: (ascii "bshome" ++ 0x3D :: v)) = (0x62 :: ascii "bshome", some v) := fun v => splitFlag_value (by decide)
  have s4 : ∀ v, splitFlag (0x64 :: (ascii "river" ++ 0x3D :: v)) = (0x64 :: ascii "river", some v) := fun v => splitFlag_value (by decide)
  induction h with
  | done => rfl
  | @stop o s rest hs =>
    rw [parseFlags_cons]
    split
    · rename_i c cs
      exact absurd ⟨c, cs, rfl⟩ hs
    · rfl
  | @dashes o rest =>
    rw [parseFlags_cons]
    rfl
  | @homeEq o d v rest r hd _ ih =>
    have e : d ++ ascii "bbshome" ++ ascii "=" ++ v = d ++ 0x62 :: (ascii "bshome" ++ 0x3D :: v) := by
      simp only [List.append_assoc, hb, List.cons_append]; rfl
    rw [e, parseFlags_name o hd _ _ (by decide) (by decide), s3]
    simp only [a1, Option.getD_some]
    exact ih
  | @homeNext o d v rest r hd _ ih =>
    rw [hb, parseFlags_name o hd _ _ (by decide) (by decide), s1]
    simp only [a1, Option.getD_some]
    exact ih
  | @homeLast o d hd =>
    rw [hb, parseFlags_name o hd _ _ (by decide) (by decide), s1]
    simp only [a1]
  | @driverEq o d v rest r hd _ ih =>
    have e : d ++ ascii "driver" ++ ascii "=" ++ v = d ++ 0x64 :: (ascii "river" ++ 0x3D :: v) := by
      simp only [List.append_assoc, hdr, List.cons_append]; rfl
    rw [e, parseFlags_name o hd _ _ (by decide) (by decide), s4]
    simp only [a2, Option.getD_some]
    exact ih
  | @driverNext o d v rest r hd _ ih =>
    rw [hdr, parseFlags_name o hd _ _ (by decide) (by decide), s2]
    simp only [a2, Option.getD_some]
    exact ih
  | @driverLast o d hd =>
    rw [hdr, parseFlags_name o hd _ _ (by decide) (by decide), s2]
    simp only [a2]
  | @help o s rest hs =>
    obtain ⟨d, h, t, hd, hh, rfl, ht⟩ := hs
    have key : ∀ as : Bytes, h = 0x68 :: as → 0x3D ∉ as → (h = ascii "help" ∨ h = ascii "h") → h ≠ ascii "driver" → h ≠ ascii "bbshome" →
        parseFlags o ((d ++ h ++ t) :: rest) = .help := by
      intro as e hno hk k1 k2
      have hs : (splitFlag (0x68 :: (as ++ t))).1 = h := by
        rcases ht with rfl | ⟨x, rfl⟩
        · rw [List.append_nil, splitFlag_bare hno, e]
        · show (splitFlag (0x68 :: (as ++ 0x3D :: x))).1 = h
          rw [splitFlag_value hno, e]
      have e2 : d ++ h ++ t = d ++ 0x68 :: (as ++ t) := by rw [e]; simp
      rw [e2, parseFlags_name o hd _ _ (by decide) (by decide), hs, assign_none _ k1 k2]
      exact if_pos hk
    rcases hh with rfl | rfl
    · exact key [] rfl (by decide) (Or.inr rfl) (by decide) (by decide)
    · exact key (ascii "elp") rfl (by decide) (Or.inl rfl) (by decide) (by decide)
  | @bad o s rest hs hne hno hnh =>
    obtain ⟨c, cs, rfl⟩ := hs
    -- the dashes and what follows them
    have hsplit : ∃ d name, Dashes d ∧ name ≠ [] ∧ ascii "-" ++ c :: cs = d ++ name ∧
        parseFlags o ((ascii "-" ++ c :: cs) :: rest) =
          (if name.head? = some 0x2D ∨ name.head? = some 0x3D then .bad else parseFlags o ((d ++ name) :: rest)) := by
      by_cases hc : c = 0x2D
      · subst hc
        have hcs : cs ≠ [] := fun e => hne (by rw [e]; rfl)
        refine ⟨ascii "--", cs, Or.inr rfl, hcs, rfl, ?_⟩
        split
        · rename_i hh
          show parseFlags o ((0x2D :: 0x2D :: cs) :: rest) = _
          rw [parseFlags_cons]
          simp only [hcs, and_false, if_false, if_true, if_pos hh]
        · rfl
      · refine ⟨ascii "-", c :: cs, Or.inl rfl, by simp, rfl, ?_⟩
        split
        · rename_i hh
          show parseFlags o ((0x2D :: c :: cs) :: rest) = _
          rw [parseFlags_cons]
          simp only [if_neg (show ¬ (c = 0x2D ∧ cs = []) from fun h => hc h.1), if_neg hc, if_pos hh]
        · rfl
    obtain ⟨d, name, hd, hname, he, hp⟩ := hsplit
    rw [hp]
    split
    · rfl
    · rename_i hh
      cases name with
      | nil => exact absurd rfl hname
      | cons a as =>
        simp only [List.head?_cons, Option.some.injEq, not_or] at hh
        rw [parseFlags_name o hd a as hh.1 hh.2]
        -- the shape of the argument in terms of its name
        have shape : ∃ t, a :: as = (splitFlag (a :: as)).1 ++ t ∧ (t = [] ∨ ∃ x, t = ascii "=" ++ x) := by
          rcases splitFlag_spec a as with ⟨_, h⟩ | ⟨n, v, _, h2, h⟩
          · rw [h]; exact ⟨[], by simp, Or.inl rfl⟩
          · rw [h]
            refine ⟨0x3D :: v, ?_, Or.inr ⟨v, rfl⟩⟩
            rw [h2]; rfl
        obtain ⟨t, ht, ht'⟩ := shape
        have n1 : ∀ n, (n = ascii "driver" ∨ n = ascii "bbshome") → (splitFlag (a :: as)).1 ≠ n := by
          intro n hn e
          refine hno ⟨d, n, t, hd, hn, ?_, ht'⟩
          rw [he, ht, e, List.append_assoc]
        have n2 : ∀ n, (n = ascii "h" ∨ n = ascii "help") → (splitFlag (a :: as)).1 ≠ n := by
          intro n hn e
          refine hnh ⟨d, n, t, hd, hn, ?_, ht'⟩
          rw [he, ht, e, List.append_assoc]
        rw [assign_none _ (n1 _ (Or.inl rfl)) (n1 _ (Or.inr rfl))]
        simp only
        rw [if_neg]
        rintro (e | e)
        · exact n2 _ (Or.inr rfl) e
        · exact n2 _ (Or.inl rfl) e

/-- Every command line means something. -/
theorem Flags.total : ∀ (n : Nat) (o : ToolOptions) (argv : List Bytes), argv.length ≤ n → ∃ r, Flags o argv r := by
  intro n
  induction n with
  | zero =>
    intro o argv h
    obtain rfl := List.length_eq_zero_iff.mp (Nat.le_zero.mp h)
    exact ⟨_, .done⟩
  | succ n ih =>
    intro o argv h
    match argv with
    | [] => exact ⟨_, .done⟩
    | s :: rest =>
      have hr : rest.length ≤ n := by simpa using h
      by_cases h1 : LooksLikeOption s
      · by_cases h2 : s = ascii "--"
        · subst h2; exact ⟨_, .dashes⟩
        · by_cases h3 : AsksHelp s
          · exact ⟨_, .help h3⟩
          · by_cases h4 : NamesOption s
            · obtain ⟨d, nm, t, hd, hn, rfl, ht⟩ := h4
              rcases ht with rfl | ⟨x, rfl⟩
              · rw [List.append_nil]
                match rest with
                | [] =>
                  rcases hn with rfl | rfl
                  · exact ⟨_, .driverLast hd⟩
                  · exact ⟨_, .homeLast hd⟩
                | v :: rest' =>
                  have hr' : rest'.length ≤ n := by simp at hr; omega
                  rcases hn with rfl | rfl
                  · obtain ⟨r, hr⟩ := ih { o with driver := v } rest' hr'
                    exact ⟨r, .driverNext hd hr⟩
                  · obtain ⟨r, hr⟩ := ih { o with home := v } rest' hr'
                    exact ⟨r, .homeNext hd hr⟩
              · rw [← List.append_assoc]
                rcases hn with rfl | rfl
                · obtain ⟨r, hr⟩ := ih { o with driver := x } rest hr
                  exact ⟨r, .driverEq hd hr⟩
                · obtain ⟨r, hr⟩ := ih { o with home := x } rest hr
                  exact ⟨r, .homeEq hd hr⟩
            · exact ⟨_, .bad h1 h2 h4 h3⟩
      · exact ⟨_, .stop h1⟩

/-- **C73.** The options are read as package `flag` documents it. -/
theorem C73_flags (o : ToolOptions) (argv : List Bytes) (r : FlagResult) : parseFlags o argv = r ↔ Flags o argv r := by
  constructor
  · rintro rfl
    obtain ⟨r, hr⟩ := Flags.total _ o argv (Nat.le_refl _)
    rw [Flags.holds hr]
    exact hr
  · exact Flags.holds

/-- Options behind the subcommand are left to it. -/
theorem C73_subcommand_first (cmd : Bytes) (h : ¬ LooksLikeOption cmd) (rest : List Bytes) :
    parseFlags .default (cmd :: rest) = .parsed ⟨ascii "pttbbs", ascii "/home/bbs"⟩ (cmd :: rest) := (C73_flags _ _ _).mpr (.stop h)

example : Flags .default [ascii "-driver", ascii "x", ascii "--bbshome=/b", ascii "add_board", ascii "--bbshome=/c"]
    (.parsed ⟨ascii "x", ascii "/b"⟩ [ascii "add_board", ascii "--bbshome=/c"]) :=
  (C73_flags _ _ _).mp (by decide +kernel)

example : parseFlags .default [ascii "--help"] = .help ∧ parseFlags .default [ascii "-bbshom=/b"] = .bad ∧
    parseFlags .default [ascii "-bbshome"] = .bad ∧ parseFlags .default [ascii "-=x"] = .bad ∧
    parseFlags .default [ascii "---h"] = .bad ∧ parseFlags .default [ascii "-", ascii "a"] = .parsed .default [ascii "-", ascii "a"] := by
  decide +kernel

end Verif
