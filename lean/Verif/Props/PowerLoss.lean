import Verif.Spec.PowerLoss
import Verif.Props.Outage
import Verif.Props.Stopped
import Verif.Proofs.Progress
/-!
# C129: the power fails
-/

namespace Verif
open Spec

/-! ## One call on a disk that was stored -/

/-- The path a call removes. -/
def Spec.removes (db : DB) : Call → Res Bytes
  | .deleteDraft u d => getUserDraftPath db.home u d
  | _ => .err "nothing is removed"

/-- What a call does to the disk: nothing, it writes to its file, it makes an empty file, or it removes one. -/
theorem exec_effect (db : DB) (c : Codec) (fs : FS) (op : Call) :
    (op.exec db c fs).1 = fs ∨
    (∃ p l old k, target db op = .ok p ∧ fs.lookup db.cwd p = .ok l ∧ (fs.get l = some (.file old) ∨ fs.get l = none ∧ old = [] ∧ makes op) ∧
      (op.exec db c fs).1 = fs.set l (.file (begun c k old op))) ∨
    (∃ l, target db op = .err "no file is written to" ∧ removes db op = .err "nothing is removed" ∧ l ≠ [] ∧ fs.get l = none ∧ (op.exec db c fs).1 = fs.set l (.file [])) ∨
    ∃ p l, target db op = .err "no file is written to" ∧ removes db op = .ok p ∧ fs.lookup db.cwd p = .ok l ∧ l ≠ [] ∧ (op.exec db c fs).1 = fs.del l := by
  have old : ∀ {l : Path} {d : Bytes}, fs.get l ≠ some .dir → d = (fileAt fs l).getD [] → fs.get l = some (.file d) ∨ fs.get l = none ∧ d = [] := by
    intro l d hl hd
    unfold fileAt at hd
    cases e' : fs.get l with
    | none => rw [e'] at hd; exact Or.inr ⟨rfl, hd⟩
    | some nd =>
      cases nd with
      | dir => exact absurd e' hl
      | file y => rw [e'] at hd; left; rw [hd]; rfl
  have writes_cases : ∀ r : Res FS, (writes fs r).1 = fs ∨ ∃ fs', r = .ok fs' ∧ (writes fs r).1 = fs' := by
    intro r
    cases r with
    | ok fs' => exact Or.inr ⟨fs', rfl, rfl⟩
    | _ => exact Or.inl rfl
  cases op with
  | addBoard r =>
    rcases writes_cases (db.addBoardRecord c fs r) with h | ⟨fs', h, h'⟩
    · exact Or.inl h
    · obtain ⟨p, hp, h⟩ := Res.bind_eq_ok.mp h
      obtain ⟨⟨l, d⟩, ho, h⟩ := Res.bind_eq_ok.mp h
      obtain ⟨h1, h2, h3⟩ := FS.openCreate_ok ho
      refine Or.inr (Or.inl ⟨p, l, d, (r.marshal c).length, hp, h1, (old h2 h3).imp id (fun h => ⟨h.1, h.2, trivial⟩), ?_⟩)
      rw [show (Call.exec db c fs (.addBoard r)).1 = fs' from h', ← Res.ok.inj h]
      simp [begun]
  | addRecord b r =>
    rcases writes_cases (db.addArticleRecord c fs b r) with h | ⟨fs', h, h'⟩
    · exact Or.inl h
    · obtain ⟨p, hp, h⟩ := Res.bind_eq_ok.mp h
      obtain ⟨⟨l, d⟩, ho, h⟩ := Res.bind_eq_ok.mp h
      obtain ⟨h1, h2, h3⟩ := FS.openCreate_ok ho
      refine Or.inr (Or.inl ⟨p, l, d, (r.marshal c).length, hp, h1, (old h2 h3).imp id (fun h => ⟨h.1, h.2, trivial⟩), ?_⟩)
      rw [show (Call.exec db c fs (.addRecord b r)).1 = fs' from h', ← Res.ok.inj h]
      simp [begun]
  | writeArticle b f x =>
    rcases writes_cases (db.writeBoardArticleFile fs b f x) with h | ⟨fs', h, h'⟩
    · exact Or.inl h
    · obtain ⟨p, hp, h⟩ := Res.bind_eq_ok.mp h
      obtain ⟨⟨l, d⟩, ho, h⟩ := Res.bind_eq_ok.mp h
      obtain ⟨h1, h2, h3⟩ := FS.openCreate_ok ho
      refine Or.inr (Or.inl ⟨p, l, d, x.length, hp, h1, (old h2 h3).imp id (fun h => ⟨h.1, h.2, trivial⟩), ?_⟩)
      rw [show (Call.exec db c fs (.writeArticle b f x)).1 = fs' from h', ← Res.ok.inj h]
      simp [begun, writeAt]
  | appendArticle b f x =>
    rcases writes_cases (db.appendBoardArticleFile fs b f x) with h | ⟨fs', h, h'⟩
    · exact Or.inl h
    · obtain ⟨p, hp, h⟩ := Res.bind_eq_ok.mp h
      obtain ⟨l, hl, h⟩ := Res.bind_eq_ok.mp h
      split at h
      · cases h
      · cases h
      · next d hg =>
        refine Or.inr (Or.inl ⟨p, l, d, x.length, hp, hl, Or.inl hg, ?_⟩)
        rw [show (Call.exec db c fs (.appendArticle b f x)).1 = fs' from h', ← Res.ok.inj h]
        simp [begun]
  | writeDraft u d x =>
    rcases writes_cases (db.writeUserDraft fs u d x) with h | ⟨fs', h, h'⟩
    · exact Or.inl h
    · obtain ⟨p, hp, h⟩ := Res.bind_eq_ok.mp h
      obtain ⟨⟨l, y⟩, ho, h⟩ := Res.bind_eq_ok.mp h
      obtain ⟨h1, h2, h3⟩ := FS.openCreate_ok ho
      refine Or.inr (Or.inl ⟨p, l, y, x.length, hp, h1, (old h2 h3).imp id (fun h => ⟨h.1, h.2, trivial⟩), ?_⟩)
      rw [show (Call.exec db c fs (.writeDraft u d x)).1 = fs' from h', ← Res.ok.inj h]
      simp [begun]
  | createArticle b o d t draw fuel =>
    have H : ∀ k, match db.createFilename fs b draw fuel k with
        | .ok (_, fs') => ∃ l, l ≠ [] ∧ fs.get l = none ∧ fs' = fs.set l (.file [])
        | _ => True := by
      induction fuel with
      | zero => intro k; trivial
      | succ fuel ih =>
        intro k
        simp only [DB.createFilename]
        cases getBoardArticleFilePath db.home b (DB.articleName (draw k).1 (draw k).2) with
        | ok p =>
          simp only [Res.ok_bind]
          cases e : fs.createExcl db.cwd p with
          | ok fs' =>
            obtain ⟨l, hl, e⟩ := Res.bind_eq_ok.mp e
            split at e
            · next hn => exact ⟨l, FS.ne_root (fs := fs) (by rw [hn]; simp), hn, (Res.ok.inj e).symm⟩
            · cases e
          | err => exact ih (k + 1)
          | panic => exact ih (k + 1)
          | diverge => exact ih (k + 1)
        | err => trivial
        | panic => trivial
        | diverge => trivial
    have := H 0
    simp only [Call.exec, DB.createArticleRecord]
    cases e : db.createFilename fs b draw fuel 0 with
    | ok r =>
      obtain ⟨n, fs'⟩ := r
      rw [e] at this
      obtain ⟨l, h1, h2, h3⟩ := this
      exact Or.inr (Or.inr (Or.inl ⟨l, rfl, rfl, h1, h2, h3⟩))
    | err => exact Or.inl rfl
    | panic => exact Or.inl rfl
    | diverge => exact Or.inl rfl
  | deleteDraft u d =>
    rcases writes_cases (db.deleteUserDraft fs u d) with h | ⟨fs', h, h'⟩
    · exact Or.inl h
    · obtain ⟨p, hp, h⟩ := Res.bind_eq_ok.mp h
      obtain ⟨l, hl, h⟩ := Res.bind_eq_ok.mp h
      have he : (Call.exec db c fs (.deleteDraft u d)).1 = fs' := h'
      right; right; right
      split at h
      · cases h
      · next hg => exact ⟨p, l, rfl, hp, hl, FS.ne_root (fs := fs) (by rw [hg]; simp), by rw [he, ← Res.ok.inj h]⟩
      · split at h
        · cases h
        · next hroot =>
          split at h
          · cases h
          · exact ⟨p, l, rfl, hp, hl, hroot, by rw [he, ← Res.ok.inj h]⟩
  | _ => exact Or.inl rfl

/-- A call whose file can be written to writes everything. -/
theorem exec_whole {db : DB} {c : Codec} {fs : FS} {op : Call} {p old : Bytes} {l : Path} (h1 : target db op = .ok p) (h2 : fs.lookup db.cwd p = .ok l)
    (h3 : fs.get l = some (.file old) ∨ fs.get l = none ∧ old = [] ∧ makes op) :
    ∃ m, ∀ k, m ≤ k → (op.exec db c fs).1 = fs.set l (.file (begun c k old op)) := by
  have ho : makes op → fs.openCreate db.cwd p = .ok (l, old) := by
    intro _
    rcases h3 with h3 | ⟨h3, rfl, _⟩ <;> simp [FS.openCreate, h2, h3, Res.ok_bind]
  cases op with
  | addBoard r =>
    refine ⟨(r.marshal c).length, fun k hk => ?_⟩
    have h1 : getBoardPath db.home = .ok p := h1
    simp only [Call.exec, DB.addBoardRecord, h1, Res.ok_bind, FS.appendCreate, ho trivial, writes, begun, List.take_of_length_le hk]
  | addRecord b r =>
    refine ⟨(r.marshal c).length, fun k hk => ?_⟩
    have h1 : getBoardArticlesDirectoryPath db.home b = .ok p := h1
    simp only [Call.exec, DB.addArticleRecord, h1, Res.ok_bind, FS.appendCreate, ho trivial, writes, begun, List.take_of_length_le hk]
  | writeArticle b f x =>
    refine ⟨x.length, fun k hk => ?_⟩
    have h1 : getBoardArticleFilePath db.home b f = .ok p := h1
    simp only [Call.exec, DB.writeBoardArticleFile, h1, Res.ok_bind, FS.overwrite, ho trivial, writes, begun, List.take_of_length_le hk]
    simp [writeAt, Nat.min_eq_right hk]
  | appendArticle b f x =>
    refine ⟨x.length, fun k hk => ?_⟩
    have h1 : getBoardArticleFilePath db.home b f = .ok p := h1
    have h3 : fs.get l = some (.file old) := h3.elim id fun h => h.2.2.elim
    simp only [Call.exec, DB.appendBoardArticleFile, h1, Res.ok_bind, FS.append, h2, h3, writes, begun, List.take_of_length_le hk]
  | writeDraft u d x =>
    refine ⟨x.length, fun k hk => ?_⟩
    have h1 : getUserDraftPath db.home u d = .ok p := h1
    simp only [Call.exec, DB.writeUserDraft, h1, Res.ok_bind, FS.writeFile, ho trivial, writes, begun, List.take_of_length_le hk]
  | _ => cases h1

/-- A call changes at most one place. -/
theorem exec_place (db : DB) (c : Codec) (fs : FS) (op : Call) :
    ∃ l, SameExcept fs (op.exec db c fs).1 [l] ∧ ∀ p l', target db op = .ok p → fs.lookup db.cwd p = .ok l' → l' = l := by
  rcases exec_effect db c fs op with h | ⟨p, l, old, k, h1, h2, h3, h⟩ | ⟨l, h1, -, h2, h3, h⟩ | ⟨p, l, h1, -, h2, h3, h⟩
  · rw [h]
    cases ht : target db op with
    | ok p =>
      cases hl : fs.lookup db.cwd p with
      | ok l => exact ⟨l, fun _ _ => rfl, fun p' l' h1 h2 => by cases h1; rw [hl] at h2; exact (Res.ok.inj h2).symm⟩
      | _ => exact ⟨[], fun _ _ => rfl, fun p' l' h1 h2 => by cases h1; rw [hl] at h2; cases h2⟩
    | _ => exact ⟨[], fun _ _ => rfl, fun p' l' h1 h2 => by cases h1⟩
  · refine ⟨l, ?_, fun p' l' e1 e2 => ?_⟩
    · rw [h]
      exact set_except (FS.ne_root (fs := fs) (by rcases h3 with h | ⟨h, _⟩ <;> rw [h] <;> simp)) _
    · rw [h1] at e1; cases e1; rw [h2] at e2; exact (Res.ok.inj e2).symm
  · exact ⟨l, by rw [h]; exact set_except h2 _, fun p' l' e1 e2 => by rw [h1] at e1; cases e1⟩
  · refine ⟨l, ?_, fun p' l' e1 e2 => by rw [h1] at e1; cases e1⟩
    intro q hq
    rw [h, FS.get_del h3, if_neg (by simpa using hq)]

/-- **C129, one call.** If what was done before a call is stored, the power leaves what a stop of the machine leaves (C121): one file is touched. -/
theorem C129_one_call (db : DB) (c : Codec) (fs : FS) (op : Call) (D : FS) : Call.PowerLoss db c fs [op] D ↔ Left db c fs op D := by
  constructor
  · intro h
    have H : ∀ l, ∃ D0, Left db c fs op D0 ∧ D.get l = D0.get l := by
      intro l
      obtain ⟨pre, op', post, ns, k, e, h⟩ := h l
      cases pre with
      | nil =>
        rw [List.nil_append] at e
        cases e
        exact ⟨_, C121_left db c fs op ns k, h⟩
      | cons x pre => simp at e
    obtain ⟨l, h1, h2⟩ := exec_place db c fs op
    have others : ∀ q, q ≠ l → D.get q = fs.get q := by
      intro q hq
      obtain ⟨D0, h3 | h3 | ⟨p, l', old, k, h3, h4, -, -, h5⟩, h6⟩ := H q
      · rw [h6, h3]
      · rw [h6, h3, h1 q (by simpa using hq)]
      · rw [h6, h5 q (by rw [h2 p l' h3 h4]; simpa using hq)]
    obtain ⟨D0, h3 | h3 | ⟨p, l', old, k, h3, h4, h5, h6, h7⟩, h8⟩ := H l
    · left
      intro q
      by_cases hq : q = l
      · rw [hq, h8, h3]
      · exact others q hq
    · right; left
      intro q
      by_cases hq : q = l
      · rw [hq, h8, h3]
      · rw [others q hq, h1 q (by simpa using hq)]
    · obtain rfl := h2 p l' h3 h4
      exact Or.inr (Or.inr ⟨p, l', old, k, h3, h4, h5, by rw [h8, h6], fun q hq => others q (by simpa using hq)⟩)
  · intro h l
    obtain ⟨ns, k, h⟩ := (C121_exact db c fs op D).mpr h
    exact ⟨[], op, [], ns, k, rfl, h l⟩

/-! ## Calls one after the other -/

theorem Spec.AddedTo.refl (a : Option Node) : AddedTo a a := Or.inl rfl

theorem Spec.AddedTo.trans {a b c : Option Node} (h : AddedTo a b) (h' : AddedTo b c) : AddedTo a c := by
  rcases h with rfl | ⟨d, x, h1, rfl⟩
  · exact h'
  · rcases h' with rfl | ⟨d', x', h2 | ⟨h2, _⟩, rfl⟩
    · exact Or.inr ⟨d, x, h1, rfl⟩
    · cases h2
      exact Or.inr ⟨d, x ++ x', h1, by rw [List.append_assoc]⟩
    · cases h2

theorem take_grown (x : Bytes) (j k : Nat) (h : j ≤ k) : ∃ z, x.take k = x.take j ++ z := by
  refine ⟨(x.drop j).take (k - j), ?_⟩
  rw [← List.take_add, Nat.add_sub_cancel' h]

/-- One call, at a place that it does not rewrite. -/
theorem grown_left {db : DB} {c : Codec} {fs D : FS} {op : Call} {l : Path} (h : ∀ p, rewrites db op = .ok p → fs.lookup db.cwd p ≠ .ok l)
    (hD : Left db c fs op D) : AddedTo (fs.get l) (D.get l) ∧ AddedTo (D.get l) ((op.exec db c fs).1.get l) := by
  have adds : (∀ p, rewrites db op = .ok p → fs.lookup db.cwd p ≠ .ok l) → ∀ p, target db op = .ok p → fs.lookup db.cwd p = .ok l →
      ∃ z : Bytes, ∀ old k, begun c k old op = old ++ z.take k := by
    intro h p h1 h2
    cases op with
    | addBoard r => exact ⟨r.marshal c, fun _ _ => rfl⟩
    | addRecord b r => exact ⟨r.marshal c, fun _ _ => rfl⟩
    | appendArticle b f x => exact ⟨x, fun _ _ => rfl⟩
    | writeArticle b f x => exact absurd h2 (h p h1)
    | writeDraft u d x => exact absurd h2 (h p h1)
    | _ => cases h1
  have whole : AddedTo (fs.get l) ((op.exec db c fs).1.get l) := by
    rcases exec_effect db c fs op with e | ⟨p, l', old, k, h1, h2, h3, e⟩ | ⟨l', -, -, h2, h3, e⟩ | ⟨p, l', -, h1, h2, h3, e⟩
    · rw [e]; exact .refl _
    · rw [e]
      have hroot : l' ≠ [] := FS.ne_root (fs := fs) (by rcases h3 with h | ⟨h, _⟩ <;> rw [h] <;> simp)
      rw [FS.get_set hroot]
      split
      · next hq =>
        subst hq
        obtain ⟨z, hz⟩ := adds h p h1 h2
        exact Or.inr ⟨old, z.take k, h3.imp id fun h => ⟨h.1, h.2.1⟩, by rw [hz]⟩
      · exact .refl _
    · rw [e, FS.get_set h2]
      split
      · next hq => subst hq; rw [h3]; exact Or.inr ⟨[], [], Or.inr ⟨rfl, rfl⟩, rfl⟩
      · exact .refl _
    · rw [e, FS.get_del h3]
      split
      · next hq =>
        subst hq
        refine absurd h2 (h p ?_)
        cases op with
        | deleteDraft u d => exact h1
        | _ => cases h1
      · exact .refl _
  rcases hD with h1 | h1 | ⟨p, l', old, k, h1, h2, h3, h4, h5⟩
  · rw [h1]; exact ⟨.refl _, whole⟩
  · rw [h1]; exact ⟨whole, .refl _⟩
  · by_cases hq : l = l'
    · subst hq
      obtain ⟨z, hz⟩ := adds h p h1 h2
      rw [h4, hz]
      refine ⟨Or.inr ⟨old, z.take k, h3.imp id fun h => ⟨h.1, h.2.1⟩, rfl⟩, ?_⟩
      obtain ⟨m, hm⟩ := exec_whole (c := c) h1 h2 h3
      have hroot : l ≠ [] := FS.ne_root (fs := fs) (by rcases h3 with h | ⟨h, _⟩ <;> rw [h] <;> simp)
      obtain ⟨y, hy⟩ := take_grown z k (max m k) (Nat.le_max_right ..)
      rw [hm (max m k) (Nat.le_max_left ..), FS.get_set hroot, if_pos rfl, hz, hy]
      exact Or.inr ⟨_, y, Or.inl rfl, by rw [List.append_assoc]⟩
    · rw [h5 l (by simpa using hq)]; exact ⟨.refl _, whole⟩

/-- There are no links: a path leads to one place. -/
theorem walk_one {fs fs' : FS} {l l' : Path} (cs : List Bytes) : ∀ {cur : Path}, fs.walk cur cs = .ok l → fs'.walk cur cs = .ok l' → l = l' := by
  induction cs with
  | nil => intro cur h h'; exact (Res.ok.inj h).symm.trans (Res.ok.inj h')
  | cons c cs ih =>
    intro cur h h'
    simp only [FS.walk] at h h'
    split at h
    · cases h
    · cases h
    · split at h'
      · cases h'
      · cases h'
      · exact ih h h'

theorem lookup_one {fs fs' : FS} {cwd l l' : Path} {p : Bytes} (h : fs.lookup cwd p = .ok l) (h' : fs'.lookup cwd p = .ok l') : l = l' := by
  unfold FS.lookup at h h'
  split at h
  · cases h
  · next h1 =>
    rw [if_neg h1] at h'
    split at h
    · cases h
    · next h2 =>
      rw [if_neg h2] at h'
      exact walk_one _ h h'

theorem grown_all {db : DB} {c : Codec} {l : Path} (ops : List Call) : ∀ fs : FS,
    (∀ op ∈ ops, ∀ p, rewrites db op = .ok p → ∀ fs' : FS, fs'.lookup db.cwd p ≠ .ok l) → AddedTo (fs.get l) ((Call.execAll db c fs ops).1.get l) := by
  induction ops with
  | nil => intro fs h; exact .refl _
  | cons op ops ih =>
    intro fs h
    have h1 := (grown_left (c := c) (fun p hp => h op (by simp) p hp fs) (Or.inl (same_refl fs))).2
    exact h1.trans (ih _ fun op' ho => h op' (by simp [ho]))

theorem execAll_append (db : DB) (c : Codec) (pre post : List Call) : ∀ fs : FS,
    (Call.execAll db c fs (pre ++ post)).1 = (Call.execAll db c (Call.execAll db c fs pre).1 post).1 := by
  induction pre with
  | nil => intro fs; rfl
  | cons op pre ih => intro fs; exact ih _

/-- **C129, what is only added to.** Calls are made one after the other and the power fails. A file to which nothing was done but adding (a list, the list
of boards, an article that is commented on, a name that was claimed) has what was stored, and a beginning of what was added to it. -/
theorem C129_added (db : DB) (c : Codec) (fs : FS) (ops : List Call) (D : FS) (l : Path)
    (h : ∀ op ∈ ops, ∀ p, rewrites db op = .ok p → ∀ fs' : FS, fs'.lookup db.cwd p ≠ .ok l) (hD : Call.PowerLoss db c fs ops D) :
    AddedTo (fs.get l) (D.get l) ∧ AddedTo (D.get l) ((Call.execAll db c fs ops).1.get l) := by
  obtain ⟨pre, op, post, ns, k, rfl, e⟩ := hD l
  obtain ⟨h1, h2⟩ := grown_left (l := l) (fun p hp => h op (by simp) p hp _) (C121_left db c (Call.execAll db c fs pre).1 op ns k)
  rw [← e] at h1 h2
  refine ⟨(grown_all pre fs fun op' ho => h op' (by simp [ho])).trans h1, h2.trans ?_⟩
  rw [execAll_append]
  exact grown_all post _ fun op' ho => h op' (by simp [ho])

/-! ## Clients that post, read and comment -/

/-- A place and the directories above it, on a disk that the power has left. -/
theorem loss_listed {db : DB} {c : Codec} {fs : FS} {posts : Nat → Option Post} {script : Nat → Script} (hS : Scene Post.script db c fs posts script)
    {sched : List (Nat × Nat)} {D : FS} (h : (opening fs script).PowerLoss db c sched D) (o : Obj) (ho : Placed db fs o) : Placed db D o := by
  have hC := scene_company hS
  obtain ⟨hrf, hap⟩ := C118_race_free hC
  have moment : ∀ n cuts, ∃ D', Shows db fs (((opening fs script).run db c (sched.take n)).1.outage cuts) D' := by
    intro n cuts
    obtain ⟨marks, D, s, h1, h2, h3⟩ := pair_reached db c fs script (sched.take n) hrf hap
    obtain ⟨D', hS', -⟩ := worn_outage h3 (fun p op next ht => hap s ⟨marks, h1⟩ p op next ht) cuts
    exact ⟨D', hS'⟩
  have dirs : ∀ q, fs.get q = some .dir → D.get q = some .dir := by
    intro q hq
    obtain ⟨n, cuts, e⟩ := h q
    obtain ⟨D', hS'⟩ := moment n cuts
    rw [e, hS'.dirs q hq]
  obtain ⟨h1, h2, ⟨p, l, h3, h4⟩, h5⟩ := ho
  refine ⟨h1, h2, ⟨p, l, h3, FS.lookup_mono dirs h4⟩, ?_⟩
  obtain ⟨n, cuts, e⟩ := h (at_ db o)
  obtain ⟨D', hS'⟩ := moment n cuts
  rw [e]
  exact shows_notDir hS' ⟨h1, h2, ⟨p, l, h3, h4⟩, h5⟩

/-- **C129, clients that post, read and comment.** Whatever the power leaves: every list has its old records, then the whole records of some posts, and
every article that was there has its text. -/
theorem C129_partial {db : DB} {c : Codec} {fs : FS} {posts : Nat → Option Post} {script : Nat → Script} (hS : Scene Post.script db c fs posts script)
    {sched : List (Nat × Nat)} {D : FS} (h : (opening fs script).PowerLoss db c sched D) : Endured db c fs posts D := by
  constructor
  · intro b hb
    obtain ⟨n, cuts, e⟩ := h (at_ db (.articleIndex b))
    obtain ⟨order, name, h1, h2, -, h4, h5, -⟩ := C122_posts_survive db c fs posts script hS (sched.take n) cuts
    obtain ⟨begun, -, h6⟩ := h4 b hb
    refine ⟨order, name, begun, h1, fun p hp => ?_, ?_⟩
    · obtain ⟨P, hP⟩ := Option.ne_none_iff_exists'.mp (h2 p hp)
      obtain ⟨h7, h8, h9, -⟩ := h5 p hp P hP
      exact ⟨P, hP, h7, h8, h9⟩
    · have h7 : Placed db (((opening fs script).run db c (sched.take n)).1.outage cuts) (.articleIndex b) :=
        loss_listed hS (sched := sched) (fun l => ⟨n, cuts, rfl⟩) _ hb
      rw [listed_eq h7] at h6
      rw [listed_eq (loss_listed hS h _ hb)]
      rw [← h6]
      unfold holdings fileAt
      rw [e]
  · intro b f y0 hb hy
    obtain ⟨n, cuts, e⟩ := h (at_ db (.article b f))
    obtain ⟨order, name, -, -, -, -, -, h6⟩ := C122_posts_survive db c fs posts script hS (sched.take n) cuts
    unfold fileAt
    rw [e]
    exact h6 b f y0 hb hy

/-- Whether a client is through. -/
def Spec.isThrough : Session → Bool
  | .idle .stop => true
  | _ => false

/-- Whether an event is a call that never returns. -/
def Spec.isHang : Event → Bool
  | .ret _ .diverge => true
  | _ => false

theorem through_of {x : Session} (h : isThrough x = true) : x = .idle .stop := by
  cases x with
  | idle s =>
    cases s with
    | stop => rfl
    | make => cases h
  | busy => cases h

theorem no_hang {l : List Event} {p : Nat} (h : l.all (fun e => !isHang e) = true) : .ret p .diverge ∉ l := by
  intro hm
  have := List.all_eq_true.mp h _ hm
  cases this

theorem scene_through {sched : List (Nat × Nat)} (h : List.replicate 11 (0, 0) = sched) :
    ((opening sceneFS (sceneScript Post.script .stop)).run sampleDB asciiCodec sched).1.sessions 0 = .idle .stop ∧
    .ret 0 .diverge ∉ ((opening sceneFS (sceneScript Post.script .stop)).run sampleDB asciiCodec sched).2 := by
  subst h
  exact ⟨through_of (by decide +kernel), no_hang (by decide +kernel)⟩

/-- **C129 is false:** a post that was answered may be gone. -/
theorem C129_refuted : ¬ PostsEndure Post.script := by
  intro H
  have hS := scene_ok Post.script .stop (Or.inl rfl)
  generalize hsched : List.replicate 11 (0, 0) = sched
  obtain ⟨n, order, name, -, -, h2, -, h3, -⟩ := H sampleDB asciiCodec sceneFS scenePosts _ hS sched sceneFS (fun l => ⟨0, [], rfl⟩)
  obtain ⟨-, h4, -, z, hz⟩ := h3 0 (h2 0 scenePost rfl (scene_through hsched)) scenePost rfl
  rw [show fileAt sceneFS _ = none from h4] at hz
  cases hz

theorem run_others (db : DB) (c : Codec) (q m : Nat) (hq : q ≠ 0) : ∀ s : House, (s.run db c (List.replicate m (0, 0))).1.sessions q = s.sessions q := by
  induction m with
  | zero => intro s; rfl
  | succ m ih =>
    intro s
    exact (ih _).trans (house_other db c s 0 hq)

/-- What the power may leave of the post: everything but its text. -/
def bareFS (sched : List (Nat × Nat)) : FS :=
  ((opening sceneFS (sceneScript Post.script .stop)).run sampleDB asciiCodec sched).1.fs.del (at_ sampleDB (.article (ascii "S") newName))

theorem bare_root : at_ sampleDB (.article (ascii "S") newName) ≠ [] := by decide +kernel

theorem bare_loss (sched : List (Nat × Nat)) : (opening sceneFS (sceneScript Post.script .stop)).PowerLoss sampleDB asciiCodec sched (bareFS sched) := by
  intro l
  by_cases e : l = at_ sampleDB (.article (ascii "S") newName)
  · refine ⟨0, [], ?_⟩
    unfold bareFS
    rw [FS.get_del bare_root, if_pos e, e]
    have : sceneFS.get (at_ sampleDB (.article (ascii "S") newName)) = none := by decide +kernel
    exact this.symm
  · refine ⟨sched.length, [], ?_⟩
    unfold bareFS
    rw [FS.get_del bare_root, if_neg e, List.take_length]
    rfl

/-- **C129, lists and texts:** even if every list comes through, an article in it may be without its text. -/
theorem C129_texts_refuted : ¬ ListedEndure Post.script := by
  intro H
  have hS := scene_ok Post.script .stop (Or.inl rfl)
  generalize hsched : List.replicate 11 (0, 0) = sched
  have hfinal : (opening sceneFS (sceneScript Post.script .stop)).PowerLoss sampleDB asciiCodec sched
      ((opening sceneFS (sceneScript Post.script .stop)).run sampleDB asciiCodec sched).1.fs :=
    fun l => ⟨sched.length, [], by rw [List.take_length]; rfl⟩
  obtain ⟨order, name, -, ho, -, hl, h2, -⟩ := H sampleDB asciiCodec sceneFS scenePosts _ hS sched (bareFS sched) (bare_loss sched)
    (fun p => by
      by_cases hp : p = 0
      · rw [hp]; exact (scene_through hsched).1
      · rw [← hsched, run_others _ _ _ _ hp]
        match p, hp with
        | 1, _ => rfl
        | _ + 2, _ => rfl)
    (fun b hb => by
      rw [listed_eq (loss_listed hS (bare_loss sched) _ hb), listed_eq (loss_listed hS hfinal _ hb)]
      have hne : at_ sampleDB (.articleIndex b) ≠ at_ sampleDB (.article (ascii "S") newName) := fun e => by cases at_inj hb scene_placed.2 e
      unfold holdings fileAt bareFS
      rw [FS.get_del bare_root, if_neg hne])
  obtain ⟨begun, hb, hl⟩ := hl (ascii "S") scene_placed.1
  rw [scene_empty, List.eq_nil_of_length_eq_zero (Nat.le_zero.mp hb), List.append_nil] at hl
  have hfirst : firstName (listed sampleDB asciiCodec (bareFS sched) (ascii "S")) = some newName := by
    subst hsched
    decide +kernel
  rw [hl] at hfirst
  match order, ho, h2, hfirst with
  | [], _, _, hf => cases hf
  | (p + 1) :: _, ho, _, _ => exact ho (p + 1) (by simp) rfl
  | 0 :: rest, _, h2, hf =>
    obtain ⟨hn, -, -, z, hz⟩ := h2 0 (by simp) scenePost rfl
    have hf : (storedArticle asciiCodec (scenePost.record (name 0))).filename = newName := Option.some.inj hf
    rw [← hn, hf] at hz
    unfold fileAt bareFS at hz
    rw [show scenePost.board = ascii "S" from rfl, FS.get_del bare_root, if_pos rfl] at hz
    cases hz

/-! ## Examples -/

/-- The hypotheses of `C129_partial`: a client has posted, the power fails, and its record is there without its text. -/
example : Scene Post.script sampleDB asciiCodec sceneFS scenePosts (sceneScript Post.script .stop) ∧
    (opening sceneFS (sceneScript Post.script .stop)).PowerLoss sampleDB asciiCodec (List.replicate 11 (0, 0)) (bareFS (List.replicate 11 (0, 0))) ∧
    firstName (listed sampleDB asciiCodec (bareFS (List.replicate 11 (0, 0))) (ascii "S")) = some newName ∧
    fileAt (bareFS (List.replicate 11 (0, 0))) (at_ sampleDB (.article (ascii "S") newName)) = none :=
  ⟨scene_ok _ _ (Or.inl rfl), bare_loss _, by decide +kernel, by decide +kernel⟩

/-- An article with a text. -/
def commentFS : FS := draftFS.set (at_ sampleDB (.article (ascii "S") newName)) (.file (ascii "text"))

/-- A comment, a draft, a comment. -/
def commentCalls : List Call :=
  [.appendArticle (ascii "S") newName (ascii " one"), .writeDraft (ascii "Ab") (ascii "1") (ascii "new")]

def lastComment : Call := .appendArticle (ascii "S") newName (ascii " two")

/-- The power leaves the draft as it was, the first comment, and a part of the second one. -/
def halfFS : FS := (lastComment.stopped sampleDB asciiCodec (Call.execAll sampleDB asciiCodec commentFS commentCalls).1 [0] 2).set (at_ sampleDB oldDraft)
  ((commentFS.get (at_ sampleDB oldDraft)).getD .dir)

/-- The hypotheses of `C129_added`. -/
example : Call.PowerLoss sampleDB asciiCodec commentFS (commentCalls ++ [lastComment]) halfFS ∧
    (∀ op ∈ commentCalls ++ [lastComment], ∀ p, rewrites sampleDB op = .ok p → ∀ fs' : FS,
      fs'.lookup sampleDB.cwd p ≠ .ok (at_ sampleDB (.article (ascii "S") newName))) ∧
    fileAt halfFS (at_ sampleDB (.article (ascii "S") newName)) = some (ascii "text one t") ∧
    fileAt halfFS (at_ sampleDB oldDraft) = fileAt commentFS (at_ sampleDB oldDraft) := by
  have hroot : at_ sampleDB oldDraft ≠ [] := by decide +kernel
  refine ⟨fun l => ?_, ?_, by decide +kernel, by decide +kernel⟩
  · by_cases e : l = at_ sampleDB oldDraft
    · refine ⟨[], (.appendArticle (ascii "S") newName (ascii " one")), _, [], 0, rfl, ?_⟩
      rw [e]
      decide +kernel
    · refine ⟨commentCalls, lastComment, [], [0], 2, rfl, ?_⟩
      unfold halfFS
      rw [FS.get_set hroot, if_neg e]
  · intro op ho p hp fs' hl
    have ho : op = .appendArticle (ascii "S") newName (ascii " one") ∨ op = .writeDraft (ascii "Ab") (ascii "1") (ascii "new") ∨ op = lastComment := by
      simpa [commentCalls] using ho
    rcases ho with rfl | rfl | rfl
    · cases hp
    · have h1 : getUserDraftPath sampleDB.home (ascii "Ab") (ascii "1") = .ok p := hp
      have h2 : (getUserDraftPath sampleDB.home (ascii "Ab") (ascii "1")).bind (fun p => draftFS.lookup sampleDB.cwd p) = .ok (at_ sampleDB oldDraft) := by
        decide +kernel
      rw [h1] at h2
      exact absurd (lookup_one hl h2) (by decide +kernel)
    · cases hp

end Verif
