import Verif.Props.Server
/-!
# The addresses of the service (C63, C64)
-/

namespace Verif

/-! ## Canonical paths -/

/-- The path with these segments, with or without a slash at the end. -/
def Spec.render (segs : List Bytes) (trailing : Bool) : Bytes :=
  if segs = [] then [slash] else (segs.map (slash :: ·)).flatten ++ if trailing then [slash] else []

theorem enter_plain {s : Bytes} (d : Path) (h : Spec.PlainSegment s) : Path.enter d s = d ++ [s] := by
  unfold Path.enter
  rw [if_neg (by simp [h.2.1, h.2.2.1]), if_neg h.2.2.2]

theorem foldl_enter_plain (l : List Bytes) (d : Path) (h : ∀ s ∈ l, Spec.PlainSegment s) : l.foldl Path.enter d = d ++ l := by
  induction l generalizing d with
  | nil => simp
  | cons a l ih =>
    rw [List.foldl_cons, enter_plain d (h a (by simp)), ih _ (fun s hs => h s (by simp [hs]))]
    simp

/-- The segments a path stands for are plain. -/
theorem resolve_plain (p : Bytes) : ∀ s ∈ resolve [] p, Spec.PlainSegment s := by
  have key : ∀ (l : List Bytes) (d : Path), (∀ s ∈ l, slash ∉ s) → (∀ s ∈ d, Spec.PlainSegment s) →
      ∀ s ∈ l.foldl Path.enter d, Spec.PlainSegment s := by
    intro l
    induction l with
    | nil => intro d _ h; exact h
    | cons a l ih =>
      intro d hl hd
      rw [List.foldl_cons]
      refine ih _ (fun s hs => hl s (by simp [hs])) ?_
      unfold Path.enter
      split
      · exact hd
      · split
        · intro s hs
          exact hd s (List.dropLast_subset _ hs)
        · intro s hs
          rcases List.mem_append.mp hs with hs | hs
          · exact hd s hs
          · rw [List.mem_singleton] at hs
            subst hs
            rename_i h1 h2
            exact ⟨hl s (by simp), fun e => h1 (.inl e), fun e => h1 (.inr e), h2⟩
  unfold resolve
  refine key _ _ (splitByte_not_mem _ _) ?_
  unfold pathStart
  split <;> simp

theorem splitByte_flatten (l : List Bytes) (h : ∀ s ∈ l, slash ∉ s) :
    splitByte slash ((l.map (slash :: ·)).flatten) = [] :: l := by
  have gen : ∀ (x : Bytes), slash ∉ x → splitByte slash (x ++ (l.map (slash :: ·)).flatten) = x :: l := by
    induction l with
    | nil => intro x hx; simpa using splitByte_of_not_mem hx
    | cons a l ih =>
      intro x hx
      rw [List.map_cons, List.flatten_cons, List.cons_append, splitByte_sep, splitByte_of_not_mem hx,
        ih (fun s hs => h s (by simp [hs])) a (h a (by simp))]
      rfl
  simpa using gen [] (by simp)

/-- Reading a canonical path gives its segments. -/
theorem resolve_render (segs : List Bytes) (tr : Bool) (h : ∀ s ∈ segs, Spec.PlainSegment s) :
    resolve [] (Spec.render segs tr) = segs := by
  unfold Spec.render
  split
  · rename_i e; subst e; decide
  · have hs := splitByte_flatten segs (fun s hs => (h s hs).1)
    have hp : ∀ x, pathStart [] x = [] := by intro x; unfold pathStart; split <;> rfl
    unfold resolve
    rw [hp]
    cases tr with
    | false =>
      simp only [Bool.false_eq_true, if_false, List.append_nil]
      rw [hs, List.foldl_cons]
      show segs.foldl Path.enter [] = _
      rw [foldl_enter_plain _ _ h]
      rfl
    | true =>
      simp only [if_true]
      rw [splitByte_sep, hs, List.foldl_append, List.foldl_cons]
      show List.foldl Path.enter (segs.foldl Path.enter []) [[]] = _
      rw [foldl_enter_plain _ _ h]
      simp [Path.enter]

theorem render_last (segs : List Bytes) (tr : Bool) (h : ∀ s ∈ segs, Spec.PlainSegment s) (hne : segs ≠ []) :
    (Spec.render segs tr).getLast? = some slash ↔ tr = true := by
  unfold Spec.render
  rw [if_neg hne]
  cases tr with
  | true => simp
  | false =>
    simp only [Bool.false_eq_true, if_false, List.append_nil, iff_false]
    obtain ⟨a, l, rfl⟩ : ∃ a l, segs = l ++ [a] := ⟨segs.getLast hne, segs.dropLast, (List.dropLast_concat_getLast hne).symm⟩
    have ha := h a (by simp)
    rw [List.map_append, List.flatten_append]
    simp only [List.map_cons, List.map_nil, List.flatten_cons, List.flatten_nil, List.append_nil]
    rw [List.getLast?_append, List.getLast?_cons]
    cases hx : a.getLast? with
    | none => exact absurd (List.getLast?_eq_none_iff.mp hx) ha.2.1
    | some y =>
      have : y ∈ a := List.mem_of_getLast? hx
      simp only [Option.getD_some, Option.some_or, Option.some.injEq]
      rintro rfl
      exact ha.1 this

theorem intercalate_flatten (a : Bytes) (l : List Bytes) :
    slash :: [slash].intercalate (a :: l) = ((a :: l).map (slash :: ·)).flatten := by
  induction l generalizing a with
  | nil => simp [List.intercalate]
  | cons b l ih =>
    have := ih b
    simp only [List.intercalate, List.intersperse, List.flatten_cons, List.map_cons] at this ⊢
    rw [List.singleton_append, this]
    simp

/-- What the router makes of a path. -/
theorem cleanPath_eq (p : Bytes) : cleanPath p = Spec.render (resolve [] p) (p.getLast? = some slash) := by
  have hp : ∀ x, pathStart [] x = [] := by intro x; unfold pathStart; split <;> rfl
  unfold cleanPath
  split
  · rename_i e; subst e; decide
  · rename_i hne
    have hr : resolve [] (if p.head? = some slash then p else slash :: p) = resolve [] p := by
      split
      · rfl
      · unfold resolve
        rw [hp, hp]
        rfl
    have hl : (if p.head? = some slash then p else slash :: p).getLast? = p.getLast? := by
      split
      · rfl
      · rw [List.getLast?_cons]
        cases hx : p.getLast? with
        | none => exact absurd (List.getLast?_eq_none_iff.mp hx) hne
        | some y => rfl
    generalize (if p.head? = some slash then p else slash :: p) = q at hr hl
    have hc : cleanRooted q = slash :: [slash].intercalate (resolve [] p) := by unfold cleanRooted; rw [hr]
    show (if q.getLast? = some slash ∧ cleanRooted q ≠ [slash] then cleanRooted q ++ [slash] else cleanRooted q) = _
    have hpl := resolve_plain p
    cases hs : resolve [] p with
    | nil =>
      rw [hs] at hc
      rw [if_neg (fun h => h.2 (by rw [hc]; simp [List.intercalate])), hc]
      simp [List.intercalate, Spec.render]
    | cons a l =>
      rw [hs, intercalate_flatten a l] at hc
      unfold Spec.render
      rw [if_neg (by simp : ¬ a :: l = [])]
      by_cases hlast : p.getLast? = some slash
      · have hne : cleanRooted q ≠ [slash] := by
          rw [hc]
          intro e
          have ha := hpl a (by rw [hs]; simp)
          simp [ha.2.1] at e
        rw [if_pos ⟨hl.trans hlast, hne⟩, hc]
        simp [hlast]
      · rw [if_neg (fun h => hlast (hl ▸ h.1)), hc]
        simp [hlast]

/-- Cleaning a canonical path changes nothing. -/
theorem cleanPath_render (segs : List Bytes) (tr : Bool) (h : ∀ s ∈ segs, Spec.PlainSegment s) :
    cleanPath (Spec.render segs tr) = Spec.render segs tr := by
  rw [cleanPath_eq, resolve_render _ _ h]
  by_cases hne : segs = []
  · subst hne; rfl
  · have := render_last segs tr h hne
    congr 1
    cases tr <;> simp_all

theorem render_inj {segs segs' : List Bytes} {tr tr' : Bool} (h : ∀ s ∈ segs, Spec.PlainSegment s)
    (h' : ∀ s ∈ segs', Spec.PlainSegment s) (hne : segs ≠ []) (e : Spec.render segs tr = Spec.render segs' tr') :
    segs = segs' ∧ tr = tr' := by
  have e1 : segs = segs' := by rw [← resolve_render segs tr h, e, resolve_render segs' tr' h']
  subst e1
  refine ⟨rfl, ?_⟩
  have a := render_last segs tr h hne
  have b := render_last segs tr' h hne
  rw [e] at a
  cases tr <;> cases tr' <;> simp_all

theorem splitByte_render (segs : List Bytes) (tr : Bool) (h : ∀ s ∈ segs, Spec.PlainSegment s) (hne : segs ≠ []) :
    splitByte slash (Spec.render segs tr) = [] :: segs ++ if tr then [[]] else [] := by
  have hs := splitByte_flatten segs (fun s hs => (h s hs).1)
  unfold Spec.render
  rw [if_neg hne]
  cases tr with
  | false => simpa using hs
  | true =>
    simp only [if_true]
    rw [splitByte_sep, hs]
    rfl

/-! ## Matching -/

/-- A canonical path lies below `/v1/name/`. -/
theorem render_below (name : Bytes) (hn : slash ∉ name) (segs : List Bytes) (tr : Bool) (h : ∀ s ∈ segs, Spec.PlainSegment s) :
    (ascii "/v1/" ++ name ++ [slash]).isPrefixOf (Spec.render segs tr) = true ↔
      segs.take 2 = [ascii "v1", name] ∧ (tr = true ∨ 2 < segs.length) := by
  rw [List.isPrefixOf_iff_prefix]
  by_cases hne : segs = []
  · subst hne
    constructor
    · rintro ⟨t, ht⟩
      have := congrArg List.length ht
      simp [Spec.render, ascii] at this
    · rintro ⟨h, -⟩
      simp at h
  have hsp := splitByte_render segs tr h hne
  constructor
  · rintro ⟨t, ht⟩
    have e : ascii "/v1/" ++ name ++ [slash] ++ t = ascii "/v1" ++ slash :: (name ++ slash :: t) := by simp [ascii, slash]
    rw [← ht, e, splitByte_sep, splitByte_sep, splitByte_of_not_mem hn,
      show splitByte slash (ascii "/v1") = [[], ascii "v1"] from by decide] at hsp
    simp only [List.cons_append, List.nil_append, List.cons.injEq, true_and] at hsp
    have hnil := splitByte_ne_nil slash t
    cases tr with
    | false =>
      simp only [Bool.false_eq_true, if_false, List.append_nil] at hsp
      rw [← hsp]
      refine ⟨rfl, .inr ?_⟩
      cases hx : splitByte slash t with
      | nil => exact absurd hx hnil
      | cons a l => simp
    | true =>
      refine ⟨?_, .inl rfl⟩
      simp only [if_true] at hsp
      have hl : 2 ≤ segs.length := by
        have := congrArg List.length hsp
        simp at this
        cases hx : splitByte slash t with
        | nil => exact absurd hx hnil
        | cons a l => rw [hx] at this; simp at this; omega
      have := congrArg (List.take 2) hsp
      rw [List.take_append_of_le_length hl] at this
      simpa using this.symm
  · rintro ⟨h2, ht⟩
    obtain ⟨rest, rfl⟩ : ∃ rest, segs = ascii "v1" :: name :: rest := by
      refine ⟨segs.drop 2, ?_⟩
      have := List.take_append_drop 2 segs
      rw [h2] at this
      exact this.symm
    unfold Spec.render
    rw [if_neg hne]
    cases rest with
    | nil =>
      rcases ht with ht | ht
      · subst ht
        exact ⟨[], by simp [ascii, slash]⟩
      · simp at ht
    | cons a l =>
      exact ⟨a ++ (l.map (slash :: ·)).flatten ++ if tr then [slash] else [], by simp [ascii, slash]⟩

/-- The router on a canonical path. -/
theorem serve_canonical (sign : Claims → Bytes) (st : ServerState) (r : Request) (segs : List Bytes) (tr : Bool)
    (h : ∀ s ∈ segs, Spec.PlainSegment s) (hm : r.method ≠ ascii "CONNECT") (hp : r.path = Spec.render segs tr) :
    serve sign st r = if muxWantsSlash (Spec.render segs tr) then .ok (.redirect (Spec.render segs tr ++ [slash]))
      else runRoute sign st r (muxMatch (Spec.render segs tr)) := by
  have hstar : r.path ≠ ascii "*" := by
    intro e
    have : (Spec.render segs tr).head? = some slash := by
      unfold Spec.render
      cases segs <;> simp
    rw [← hp, e] at this
    revert this
    decide
  unfold serve
  rw [if_neg hstar, if_neg hm, hp, cleanPath_render _ _ h]
  simp

theorem plain_v1 : Spec.PlainSegment (ascii "v1") := ⟨by decide, by decide, by decide, by decide⟩

theorem render_eq_iff (name : Bytes) (hn : Spec.PlainSegment name) (segs : List Bytes) (tr : Bool)
    (h : ∀ s ∈ segs, Spec.PlainSegment s) :
    Spec.render segs tr = ascii "/v1/" ++ name ↔ segs = [ascii "v1", name] ∧ tr = false := by
  have e : ascii "/v1/" ++ name = Spec.render [ascii "v1", name] false := by simp [Spec.render, ascii, slash]
  rw [e]
  constructor
  · intro he
    have hpl : ∀ s ∈ [ascii "v1", name], Spec.PlainSegment s := by
      intro s hs
      simp only [List.mem_cons, List.not_mem_nil, or_false] at hs
      rcases hs with rfl | rfl
      · exact plain_v1
      · exact hn
    obtain ⟨a, b⟩ := render_inj hpl h (by simp) he.symm
    exact ⟨a.symm, b.symm⟩
  · rintro ⟨rfl, rfl⟩; rfl

/-! ## C63: what is found where -/

theorem plain_names : Spec.PlainSegment (ascii "token") ∧ Spec.PlainSegment (ascii "boards") ∧
    Spec.PlainSegment (ascii "classes") ∧ Spec.PlainSegment (ascii "users") :=
  ⟨⟨by decide, by decide, by decide, by decide⟩, ⟨by decide, by decide, by decide, by decide⟩,
    ⟨by decide, by decide, by decide, by decide⟩, ⟨by decide, by decide, by decide, by decide⟩⟩

theorem muxWantsSlash_render (segs : List Bytes) (tr : Bool) (h : ∀ s ∈ segs, Spec.PlainSegment s) :
    muxWantsSlash (Spec.render segs tr) = true ↔
      (segs = [ascii "v1", ascii "classes"] ∨ segs = [ascii "v1", ascii "users"]) ∧ tr = false := by
  unfold muxWantsSlash
  rw [decide_eq_true_iff]
  have h1 := render_eq_iff (ascii "classes") plain_names.2.2.1 segs tr h
  have h2 := render_eq_iff (ascii "users") plain_names.2.2.2 segs tr h
  rw [show ascii "/v1/classes" = ascii "/v1/" ++ ascii "classes" from by decide, h1,
    show ascii "/v1/users" = ascii "/v1/" ++ ascii "users" from by decide, h2]
  constructor
  · rintro (⟨a, b⟩ | ⟨a, b⟩)
    · exact ⟨.inl a, b⟩
    · exact ⟨.inr a, b⟩
  · rintro ⟨a | a, b⟩
    · exact .inl ⟨a, b⟩
    · exact .inr ⟨a, b⟩

theorem muxMatch_render (segs : List Bytes) (tr : Bool) (h : ∀ s ∈ segs, Spec.PlainSegment s) :
    muxMatch (Spec.render segs tr) =
      if segs = [ascii "v1", ascii "token"] ∧ tr = false then some .token
      else if segs = [ascii "v1", ascii "boards"] ∧ tr = false then some .boards
      else if segs.take 2 = [ascii "v1", ascii "classes"] ∧ (tr = true ∨ 2 < segs.length) then some .classes
      else if segs.take 2 = [ascii "v1", ascii "users"] ∧ (tr = true ∨ 2 < segs.length) then some .users
      else none := by
  have h1 := render_eq_iff (ascii "token") plain_names.1 segs tr h
  have h2 := render_eq_iff (ascii "boards") plain_names.2.1 segs tr h
  have h3 := render_below (ascii "classes") (by decide) segs tr h
  have h4 := render_below (ascii "users") (by decide) segs tr h
  unfold muxMatch
  rw [show ascii "/v1/token" = ascii "/v1/" ++ ascii "token" from by decide,
    show ascii "/v1/boards" = ascii "/v1/" ++ ascii "boards" from by decide,
    show ascii "/v1/classes/" = ascii "/v1/" ++ ascii "classes" ++ [slash] from by decide,
    show ascii "/v1/users/" = ascii "/v1/" ++ ascii "users" ++ [slash] from by decide]
  by_cases c1 : segs = [ascii "v1", ascii "token"] ∧ tr = false
  · rw [if_pos c1, if_pos (h1.mpr c1)]
  rw [if_neg c1, if_neg (fun e => c1 (h1.mp e))]
  by_cases c2 : segs = [ascii "v1", ascii "boards"] ∧ tr = false
  · rw [if_pos c2, if_pos (h2.mpr c2)]
  rw [if_neg c2, if_neg (fun e => c2 (h2.mp e))]
  by_cases c3 : segs.take 2 = [ascii "v1", ascii "classes"] ∧ (tr = true ∨ 2 < segs.length)
  · rw [if_pos c3, if_pos (h3.mpr c3)]
  rw [if_neg c3, if_neg (fun e => c3 (h3.mp e))]
  by_cases c4 : segs.take 2 = [ascii "v1", ascii "users"] ∧ (tr = true ∨ 2 < segs.length)
  · rw [if_pos c4, if_pos (h4.mpr c4)]
  rw [if_neg c4, if_neg (fun e => c4 (h4.mp e))]

/-- **C63.** The board list. -/
theorem C63_boards (sign : Claims → Bytes) (st : ServerState) (r : Request) (hp : r.path = ascii "/v1/boards") :
    (r.method = ascii "GET" → serve sign st r = .ok (.boards st.boardHeader)) ∧
    (r.method ≠ ascii "GET" → serve sign st r = .ok .empty) := by
  have hs : serve sign st r = routeBoards st r := by
    by_cases hm : r.method = ascii "CONNECT"
    · unfold serve
      rw [hp, if_neg (by decide), if_pos hm, if_neg (by decide)]
      rfl
    · rw [serve_canonical sign st r [ascii "v1", ascii "boards"] false ?_ hm (by rw [hp]; decide), if_neg (by decide)]
      · rfl
      · intro s hs
        simp only [List.mem_cons, List.not_mem_nil, or_false] at hs
        rcases hs with rfl | rfl
        · exact plain_v1
        · exact plain_names.2.1
  rw [hs]
  unfold routeBoards
  exact ⟨fun h => if_pos h, fun h => if_neg h⟩

/-- **C63.** Below `/v1/classes/` nothing is implemented yet. -/
theorem C63_classes (sign : Claims → Bytes) (st : ServerState) (r : Request) (rest : List Bytes) (tr : Bool)
    (hm : r.method ≠ ascii "CONNECT") (h : ∀ s ∈ rest, Spec.PlainSegment s) (hr : tr = true ∨ rest ≠ [])
    (hp : r.path = Spec.render (ascii "v1" :: ascii "classes" :: rest) tr) :
    (r.method = ascii "GET" → serve sign st r = .ok .notImplemented) ∧
    (r.method ≠ ascii "GET" → serve sign st r = .ok .empty) := by
  have hpl : ∀ s ∈ ascii "v1" :: ascii "classes" :: rest, Spec.PlainSegment s := by
    intro s hs
    rcases List.mem_cons.mp hs with rfl | hs
    · exact plain_v1
    · rcases List.mem_cons.mp hs with rfl | hs
      · exact plain_names.2.2.1
      · exact h s hs
  have hc : tr = true ∨ 2 < (ascii "v1" :: ascii "classes" :: rest).length := by
    rcases hr with hr | hr
    · exact .inl hr
    · right
      cases rest with
      | nil => exact absurd rfl hr
      | cons a l => simp
  have hw : ¬ muxWantsSlash (Spec.render (ascii "v1" :: ascii "classes" :: rest) tr) = true := by
    rw [muxWantsSlash_render _ _ hpl]
    rintro ⟨e, rfl⟩
    rcases hr with hr | hr
    · cases hr
    · apply hr
      rcases e with e | e <;> simpa using (congrArg (List.drop 2) e)
  rw [serve_canonical sign st r _ tr hpl hm hp, if_neg hw, muxMatch_render _ _ hpl,
    if_neg (fun e => absurd (congrArg (List.take 2) e.1) (by simp [ascii])),
    if_neg (fun e => absurd (congrArg (List.take 2) e.1) (by simp [ascii])), if_pos ⟨rfl, hc⟩]
  show (_ → routeClasses r = _) ∧ (_ → routeClasses r = _)
  unfold routeClasses
  exact ⟨fun h => if_pos h, fun h => if_neg h⟩

/-- **C63.** The two subtrees without their slash. -/
theorem C63_slash (sign : Claims → Bytes) (st : ServerState) (r : Request) :
    (r.path = ascii "/v1/users" → serve sign st r = .ok (.redirect (ascii "/v1/users/"))) ∧
    (r.path = ascii "/v1/classes" → serve sign st r = .ok (.redirect (ascii "/v1/classes/"))) := by
  constructor
  · intro hp
    unfold serve
    rw [hp, if_neg (by decide)]
    have e1 : cleanPath (ascii "/v1/users") = ascii "/v1/users" := by decide
    have e2 : muxWantsSlash (ascii "/v1/users") = true := by decide
    rw [e1, if_pos e2, if_pos e2, ite_self]
    rfl
  · intro hp
    unfold serve
    rw [hp, if_neg (by decide)]
    have e1 : cleanPath (ascii "/v1/classes") = ascii "/v1/classes" := by decide
    have e2 : muxWantsSlash (ascii "/v1/classes") = true := by decide
    rw [e1, if_pos e2, if_pos e2, ite_self]
    rfl

/-- **C63.** A `CONNECT` request is routed by its path as it stands, without canonicalisation, and no handler answers it. -/
theorem C63_connect (sign : Claims → Bytes) (st : ServerState) (r : Request) (hm : r.method = ascii "CONNECT") (hs : r.path ≠ ascii "*") :
    (r.path = ascii "/v1/token" ∨ r.path = ascii "/v1/boards" ∨ (∃ t, r.path = ascii "/v1/classes/" ++ t) ∨
      (∃ t, r.path = ascii "/v1/users/" ++ t) → serve sign st r = .ok .empty) ∧
    (r.path = ascii "/v1/users" ∨ r.path = ascii "/v1/classes" → serve sign st r = .ok (.redirect (r.path ++ [slash]))) ∧
    (r.path ≠ ascii "/v1/token" → r.path ≠ ascii "/v1/boards" → r.path ≠ ascii "/v1/users" → r.path ≠ ascii "/v1/classes" →
      (∀ t, r.path ≠ ascii "/v1/classes/" ++ t) → (∀ t, r.path ≠ ascii "/v1/users/" ++ t) → serve sign st r = .ok .muxNotFound) := by
  have hpost : r.method ≠ ascii "POST" := by rw [hm]; decide
  have hget : r.method ≠ ascii "GET" := by rw [hm]; decide
  have hsv : serve sign st r = if muxWantsSlash r.path then .ok (.redirect (r.path ++ [slash])) else runRoute sign st r (muxMatch r.path) := by
    unfold serve
    rw [if_neg hs, if_pos hm]
  have hempty : ∀ k, runRoute sign st r (some k) = .ok .empty := by
    intro k
    cases k with
    | token => show routeToken sign st r = _; unfold routeToken; rw [if_neg hpost]
    | boards => show routeBoards st r = _; unfold routeBoards; rw [if_neg hget]
    | classes => show routeClasses r = _; unfold routeClasses; rw [if_neg hget]
    | users => show routeUsers st r = _; unfold routeUsers; rw [if_neg hget]
  refine ⟨fun h => ?_, fun h => ?_, fun h1 h2 h3 h4 h5 h6 => ?_⟩
  · have hw : muxWantsSlash r.path = false := by
      rcases h with h | h | ⟨t, h⟩ | ⟨t, h⟩ <;> rw [h]
      · decide
      · decide
      · unfold muxWantsSlash
        rw [decide_eq_false_iff_not]
        rintro (e | e) <;> have := congrArg List.length e <;> rw [List.length_append] at this
        · rw [show (ascii "/v1/classes/").length = 12 from by decide, show (ascii "/v1/classes").length = 11 from by decide] at this
          omega
        · rw [show (ascii "/v1/classes/").length = 12 from by decide, show (ascii "/v1/users").length = 9 from by decide] at this
          omega
      · unfold muxWantsSlash
        rw [decide_eq_false_iff_not]
        rintro (e | e) <;> have := congrArg (fun l => l[9]?) e
        · have h1 : (ascii "/v1/users/" ++ t)[9]? = some slash := by
            rw [List.getElem?_append_left (by decide)]; decide
          have h2 := h1.symm.trans this
          revert h2; decide
        · have h1 : (ascii "/v1/users/" ++ t)[9]? = some slash := by
            rw [List.getElem?_append_left (by decide)]; decide
          have h2 := h1.symm.trans this
          revert h2; decide
    rw [hsv, hw, if_neg (by decide)]
    have hk : ∃ k, muxMatch r.path = some k := by
      unfold muxMatch
      by_cases c1 : r.path = ascii "/v1/token"
      · exact ⟨_, if_pos c1⟩
      · rw [if_neg c1]
        by_cases c2 : r.path = ascii "/v1/boards"
        · exact ⟨_, if_pos c2⟩
        · rw [if_neg c2]
          by_cases c3 : (ascii "/v1/classes/").isPrefixOf r.path = true
          · exact ⟨_, if_pos c3⟩
          · rw [if_neg c3]
            by_cases c4 : (ascii "/v1/users/").isPrefixOf r.path = true
            · exact ⟨_, if_pos c4⟩
            · exfalso
              rcases h with h | h | ⟨t, h⟩ | ⟨t, h⟩
              · exact c1 h
              · exact c2 h
              · exact c3 (List.isPrefixOf_iff_prefix.2 ⟨t, h.symm⟩)
              · exact c4 (List.isPrefixOf_iff_prefix.2 ⟨t, h.symm⟩)
    obtain ⟨k, hk⟩ := hk
    rw [hk]
    exact hempty k
  · have hw : muxWantsSlash r.path = true := by
      rcases h with h | h <;> rw [h] <;> decide
    rw [hsv, hw, if_pos rfl]
  · have hw : muxWantsSlash r.path = false := by
      unfold muxWantsSlash
      rw [decide_eq_false_iff_not]
      rintro (e | e)
      · exact h4 e
      · exact h3 e
    rw [hsv, hw, if_neg (by decide)]
    unfold muxMatch
    rw [if_neg h1, if_neg h2, if_neg (fun e => (List.isPrefixOf_iff_prefix.1 e).elim fun t e => h5 t e.symm),
      if_neg (fun e => (List.isPrefixOf_iff_prefix.1 e).elim fun t e => h6 t e.symm)]
    rfl

example (sign : Claims → Bytes) : serve sign ⟨[], []⟩ ⟨ascii "CONNECT", ascii "/v1/users/../boards", [], [], []⟩ = .ok .empty :=
  (C63_connect sign _ _ rfl (by decide)).1 (.inr (.inr (.inr ⟨ascii "../boards", rfl⟩)))

/-- **C63.** Users: the second segment after `users` selects, further segments are ignored. -/
theorem C63_users (sign : Claims → Bytes) (st : ServerState) (r : Request) (rest : List Bytes) (tr : Bool)
    (hm : r.method = ascii "GET") (h : ∀ s ∈ rest, Spec.PlainSegment s) (hr : tr = true ∨ rest ≠ [])
    (hp : r.path = Spec.render (ascii "v1" :: ascii "users" :: rest) tr) :
    (rest[1]? = some (ascii "information") → ∀ u, Spec.FirstWithID st.userRecs (rest.headD []) u →
      serve sign st r = .ok (.userInfo u.userData)) ∧
    (rest[1]? = some (ascii "information") → (∀ u ∈ st.userRecs, u.userID ≠ rest.headD []) →
      serve sign st r = .ok (.userError (rest.headD []))) ∧
    (rest[1]? = some (ascii "favorites") → serve sign st r = .ok .notImplemented) ∧
    (rest[1]? ≠ some (ascii "information") → rest[1]? ≠ some (ascii "favorites") → serve sign st r = .ok .notFound) := by
  have hpl : ∀ s ∈ ascii "v1" :: ascii "users" :: rest, Spec.PlainSegment s := by
    intro s hs
    rcases List.mem_cons.mp hs with rfl | hs
    · exact plain_v1
    · rcases List.mem_cons.mp hs with rfl | hs
      · exact plain_names.2.2.2
      · exact h s hs
  have hc : tr = true ∨ 2 < (ascii "v1" :: ascii "users" :: rest).length := by
    rcases hr with hr | hr
    · exact .inl hr
    · right
      cases rest with
      | nil => exact absurd rfl hr
      | cons a l => simp
  have hw : ¬ muxWantsSlash (Spec.render (ascii "v1" :: ascii "users" :: rest) tr) = true := by
    rw [muxWantsSlash_render _ _ hpl]
    rintro ⟨e, rfl⟩
    rcases hr with hr | hr
    · cases hr
    · apply hr
      rcases e with e | e <;> simpa using (congrArg (List.drop 2) e)
  have hs : serve sign st r = getUsers st r := by
    rw [serve_canonical sign st r _ tr hpl (by rw [hm]; decide) hp, if_neg hw, muxMatch_render _ _ hpl,
      if_neg (fun e => absurd (congrArg (List.take 2) e.1) (by simp [ascii])),
      if_neg (fun e => absurd (congrArg (List.take 2) e.1) (by simp [ascii])),
      if_neg (fun e => absurd e.1 (by simp [ascii])), if_pos ⟨rfl, hc⟩]
    show routeUsers st r = _
    unfold routeUsers
    rw [if_pos hm]
  have hparse : parseUserPath r.path = .ok (rest.headD [], rest[1]?.getD []) := by
    unfold parseUserPath
    rw [hp, splitByte_render _ _ hpl (by simp)]
    match rest, hr with
    | [], hr =>
      have : tr = true := by simpa using hr
      subst this
      rfl
    | [a], _ => cases tr <;> rfl
    | a :: b :: l, _ => rfl
  have hpl1 : ∀ x, rest[1]? = some x → rest[1]?.getD [] = x := by intro x hx; rw [hx]; rfl
  rw [hs]
  unfold getUsers
  rw [hparse, Res.ok_bind]
  refine ⟨?_, ?_, ?_, ?_⟩
  · intro hi u hu
    simp only
    rw [hpl1 _ hi, if_pos rfl]
    unfold getUserInformation checkTokenPermission
    simp only
    rw [(findUserecByID_ok _ _ _).2 hu]
  · intro hi hu
    simp only
    rw [hpl1 _ hi, if_pos rfl]
    unfold getUserInformation checkTokenPermission
    simp only
    rcases findUserecByID_cases st.userRecs (rest.headD []) with ⟨u, hx⟩ | hx
    · have := (findUserecByID_ok _ _ _).1 hx
      obtain ⟨pre, post, e, e2, -⟩ := this
      exact absurd e2 (hu u (by rw [e]; simp))
    · rw [hx]
  · intro hi
    simp only
    rw [hpl1 _ hi, if_neg (by decide), if_pos rfl]
  · intro h1 h2
    have g : ∀ x : Bytes, x ≠ [] → rest[1]? ≠ some x → rest[1]?.getD [] ≠ x := by
      intro x hx hn
      cases hy : rest[1]? with
      | none => exact fun e => hx e.symm
      | some y =>
        rw [hy] at hn
        exact fun e => hn (congrArg some e)
    simp only
    rw [if_neg (g _ (by decide) h1), if_neg (g _ (by decide) h2)]

/-- **C63.** Everything else is not found. -/
theorem C63_nowhere (sign : Claims → Bytes) (st : ServerState) (r : Request) (segs : List Bytes) (tr : Bool)
    (hm : r.method ≠ ascii "CONNECT") (h : ∀ s ∈ segs, Spec.PlainSegment s) (hp : r.path = Spec.render segs tr)
    (h1 : ¬ (segs = [ascii "v1", ascii "token"] ∧ tr = false)) (h2 : ¬ (segs = [ascii "v1", ascii "boards"] ∧ tr = false))
    (h3 : segs.take 2 ≠ [ascii "v1", ascii "classes"]) (h4 : segs.take 2 ≠ [ascii "v1", ascii "users"]) :
    serve sign st r = .ok .muxNotFound := by
  have hw : ¬ muxWantsSlash (Spec.render segs tr) = true := by
    rw [muxWantsSlash_render _ _ h]
    rintro ⟨e | e, -⟩
    · exact h3 (by rw [e]; rfl)
    · exact h4 (by rw [e]; rfl)
  rw [serve_canonical sign st r segs tr h hm hp, if_neg hw, muxMatch_render _ _ h, if_neg h1, if_neg h2,
    if_neg (fun e => h3 e.1), if_neg (fun e => h4 e.1)]
  rfl

/-- **C63.** Any other spelling of a path is redirected to the canonical one, and that one is not redirected again. -/
theorem C63_redirect (sign : Claims → Bytes) (st : ServerState) (r : Request) (hm : r.method ≠ ascii "CONNECT")
    (hstar : r.path ≠ ascii "*") :
    (∀ q, serve sign st r = .ok (.redirect q) → ∀ q', serve sign st { r with path := q } ≠ .ok (.redirect q')) ∧
    (r.path ≠ Spec.render (resolve [] r.path) (r.path.getLast? = some slash) →
      ∃ tr, serve sign st r = .ok (.redirect (Spec.render (resolve [] r.path) tr))) := by
  have hpl := resolve_plain r.path
  have hsv : serve sign st r = if muxWantsSlash (cleanPath r.path) then .ok (.redirect (cleanPath r.path ++ [slash]))
      else if cleanPath r.path ≠ r.path then .ok (.redirect (cleanPath r.path))
      else runRoute sign st r (muxMatch (cleanPath r.path)) := by
    unfold serve
    rw [if_neg hstar, if_neg hm]
  have hnr : ∀ (k : Option Route) (r : Request) q, runRoute sign st r k ≠ .ok (.redirect q) := by
    intro k r q e
    cases k with
    | none => cases e
    | some k =>
      cases k with
      | token =>
        change routeToken sign st r = _ at e
        unfold routeToken postToken at e
        split at e
        · split at e <;> try cases e
          split at e <;> cases e
        · cases e
      | boards =>
        change routeBoards st r = _ at e
        unfold routeBoards at e
        split at e <;> cases e
      | classes =>
        change routeClasses r = _ at e
        unfold routeClasses at e
        split at e <;> cases e
      | users =>
        change routeUsers st r = _ at e
        unfold routeUsers getUsers at e
        split at e
        · obtain ⟨⟨a, b⟩, -, e⟩ := Res.bind_eq_ok.mp e
          simp only at e
          split at e
          · unfold getUserInformation checkTokenPermission at e
            simp only at e
            split at e <;> cases e
          · split at e <;> cases e
        · cases e
  have hslash : ∀ p, muxWantsSlash p = true → (p = ascii "/v1/classes" ∨ p = ascii "/v1/users") := by
    intro p hp
    unfold muxWantsSlash at hp
    exact decide_eq_true_iff.mp hp
  constructor
  · intro q hq q'
    rw [hsv] at hq
    split at hq
    · rename_i hw
      have : q = cleanPath r.path ++ [slash] := by cases hq; rfl
      subst this
      rcases hslash _ hw with e | e
      · rw [e]
        intro hx
        have := C63_classes sign st { r with path := ascii "/v1/classes" ++ [slash] } [] true hm (by simp) (.inl rfl)
          (show ascii "/v1/classes" ++ [slash] = _ by decide)
        by_cases hg : r.method = ascii "GET"
        · rw [this.1 hg] at hx; cases hx
        · rw [this.2 hg] at hx; cases hx
      · rw [e]
        intro hx
        unfold serve at hx
        rw [if_neg (show ¬ ascii "/v1/users" ++ [slash] = ascii "*" by decide), if_neg hm] at hx
        have e1 : cleanPath (ascii "/v1/users" ++ [slash]) = ascii "/v1/users" ++ [slash] := by decide
        simp only [e1] at hx
        rw [if_neg (by decide), if_neg (fun h => h rfl)] at hx
        exact hnr _ _ _ hx
    · rename_i hw
      split at hq
      · have : q = cleanPath r.path := by cases hq; rfl
        subst this
        rw [cleanPath_eq] at hw ⊢
        rw [serve_canonical sign st { r with path := Spec.render (resolve [] r.path) (r.path.getLast? = some slash) }
          _ _ hpl hm rfl, if_neg hw]
        exact hnr _ _ _
      · exact absurd hq (hnr _ _ _)
  · intro hne
    rw [hsv, cleanPath_eq]
    split
    · rename_i hw
      refine ⟨true, ?_⟩
      have := ((muxWantsSlash_render _ _ hpl).mp hw)
      rw [this.2]
      have hn : resolve [] r.path ≠ [] := by rcases this.1 with e | e <;> rw [e] <;> simp
      unfold Spec.render
      rw [if_neg hn, if_neg hn]
      simp
    · refine ⟨r.path.getLast? = some slash, ?_⟩
      rw [if_pos (Ne.symm hne)]

/-- The token of a request is the second word of its header. -/
theorem C63_token_header (r : Request) (scheme token : Bytes) (rest : List Bytes) (h1 : (32 : UInt8) ∉ scheme)
    (h2 : (32 : UInt8) ∉ token) (ha : r.auth = scheme ++ 32 :: token ++ (rest.map (32 :: ·)).flatten) :
    getTokenFromRequest r = token := by
  unfold getTokenFromRequest
  have e : r.auth = scheme ++ 32 :: (token ++ (rest.map (32 :: ·)).flatten) := by rw [ha]; simp
  rw [e, splitByte_sep, splitByte_of_not_mem h1]
  cases rest with
  | nil =>
    simp only [List.map_nil, List.flatten_nil, List.append_nil]
    rw [splitByte_of_not_mem h2]
    rfl
  | cons a l =>
    have e2 : token ++ ((a :: l).map (32 :: ·)).flatten = token ++ 32 :: (a ++ (l.map (32 :: ·)).flatten) := rfl
    rw [e2, splitByte_sep, splitByte_of_not_mem h2]
    rfl

/-- Without a second word there is no token. -/
theorem C63_no_token (r : Request) (h : (32 : UInt8) ∉ r.auth) : getTokenFromRequest r = [] := by
  unfold getTokenFromRequest
  rw [splitByte_of_not_mem h]

example : (∀ s ∈ [ascii "v1", ascii "users", ascii "SYSOP"], Spec.PlainSegment s) ∧
    Spec.render [ascii "v1", ascii "users", ascii "SYSOP"] true = ascii "/v1/users/SYSOP/" ∧
    Spec.render (resolve [] (ascii "//v1/./x/../boards")) false = ascii "/v1/boards" := by
  refine ⟨?_, by decide, by decide⟩
  intro s hs
  simp only [List.mem_cons, List.not_mem_nil, or_false] at hs
  rcases hs with rfl | rfl | rfl
  · exact plain_v1
  · exact plain_names.2.2.2
  · exact ⟨by decide, by decide, by decide, by decide⟩

/-! ## C64: hidden boards -/

/-- **C64** in full: a board with the hide flag is listed to nobody without a token. -/
def Spec.C64 : Prop := ∀ (sign : Claims → Bytes) (st : ServerState) (r : Request) (bs : List BoardHeader),
  r.auth = [] → serve sign st r = .ok (.boards bs) → ∀ b ∈ bs, ¬ b.isHide = true

/-- The list is the whole board file, whoever asks. -/
theorem C64_everyone (sign : Claims → Bytes) (st : ServerState) (auth n p : Bytes) :
    serve sign st ⟨ascii "GET", ascii "/v1/boards", auth, n, p⟩ = .ok (.boards st.boardHeader) :=
  (C63_boards sign st ⟨ascii "GET", ascii "/v1/boards", auth, n, p⟩ rfl).1 rfl

theorem C64_refuted : ¬ Spec.C64 := by
  intro h
  have := h (fun _ => []) ⟨[], [{ BoardHeader.zero with brdattr := 0x10 }]⟩ ⟨ascii "GET", ascii "/v1/boards", [], [], []⟩ _ rfl
    (C64_everyone _ _ _ _ _) { BoardHeader.zero with brdattr := 0x10 } (List.mem_cons_self ..)
  exact this (by decide)

/-- What holds: if no board is hidden, none is shown. -/
theorem C64_partial (sign : Claims → Bytes) (st : ServerState) (r : Request) (bs : List BoardHeader)
    (h : serve sign st r = .ok (.boards bs)) : bs = st.boardHeader := by
  rcases serve_cases' r with ⟨x, hx, hs⟩ | hs
  · rw [hs] at h
    rcases hx with rfl | ⟨p, rfl⟩ <;> cases h
  · rw [hs] at h
    cases hk : muxMatch r.path with
    | none => rw [hk] at h; cases h
    | some k =>
      rw [hk] at h
      cases k with
      | token =>
        change routeToken sign st r = _ at h
        unfold routeToken postToken at h
        split at h
        · split at h <;> try cases h
          split at h <;> cases h
        · cases h
      | boards =>
        change routeBoards st r = _ at h
        unfold routeBoards at h
        split at h <;> cases h
        rfl
      | classes =>
        change routeClasses r = _ at h
        unfold routeClasses at h
        split at h <;> cases h
      | users =>
        change routeUsers st r = _ at h
        unfold routeUsers getUsers at h
        split at h
        · obtain ⟨⟨a, b⟩, -, h⟩ := Res.bind_eq_ok.mp h
          simp only at h
          split at h
          · unfold getUserInformation checkTokenPermission at h
            simp only at h
            split at h <;> cases h
          · split at h <;> cases h
        · cases h

end Verif
