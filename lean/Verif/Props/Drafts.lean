import Verif.Proofs.FS
/-!
# C23: drafts
-/

namespace Verif
open Spec

/-- The draft's path, and where the kernel finds it. -/
theorem draft_lookup {db : DB} {fs : FS} {u d : Bytes} (hu : Component u) (hd : Component d) (h0 : 0 ∉ d)
    (hdir : IsDir fs db.cwd (userDir db.home u)) :
    ∃ p, getUserDraftPath db.home u d = .ok p ∧ fs.lookup db.cwd p = .ok (at_ db (.draft u d)) := by
  obtain ⟨p, hp, hr⟩ := C18_location db.cwd db.home (.draft u d) (by
    intro s hs
    simp only [Obj.names, List.mem_cons, List.not_mem_nil, or_false] at hs
    rcases hs with h | h <;> rw [h] <;> assumption)
  refine ⟨p, hp, ?_⟩
  obtain ⟨L, hL, hg⟩ := hdir
  have hpe : p = userDir db.home u ++ slash :: (ascii "buf." ++ d) := by
    have a6 : ascii "/buf." = slash :: ascii "buf." := by decide
    cases u with
    | nil => exact absurd rfl hu.nonempty
    | cons c cs =>
      have := Res.ok.inj hp
      rw [← this]
      simp [userDir, a6]
  have hc : Component (ascii "buf." ++ d) := by
    refine ⟨by simp [ascii], ?_, ?_, ?_⟩
    · rw [List.mem_append, not_or]; exact ⟨by decide, hd.noSlash⟩
    · intro e; have := congrArg List.length e; revert this; simp [ascii]
    · intro e; have := congrArg List.length e; revert this; simp [ascii]
  have h0' : 0 ∉ ascii "buf." ++ d := by
    rw [List.mem_append, not_or]; exact ⟨by decide, h0⟩
  have hl := FS.lookup_child hL hg hc h0'
  rw [hpe] at hr ⊢
  rw [hl, FS.lookup_eq hl, hr]
  rfl

theorem draft_at_inj {db : DB} {u d u' d' : Bytes} (hu : Component u) (hd : Component d) (hu' : Component u')
    (hd' : Component d') (h : at_ db (.draft u d) = at_ db (.draft u' d')) : (u, d) = (u', d') := by
  have := loc_injective (o := .draft u d) (o' := .draft u' d')
    (by
      intro s hs
      simp only [Obj.names, List.mem_cons, List.not_mem_nil, or_false] at hs
      rcases hs with h | h <;> rw [h] <;> assumption)
    (by
      intro s hs
      simp only [Obj.names, List.mem_cons, List.not_mem_nil, or_false] at hs
      rcases hs with h | h <;> rw [h] <;> assumption) trivial trivial (List.append_cancel_left h)
  injection this with a b
  rw [a, b]

/-- What is kept during a history: `m` is what the good slots contain. -/
structure DraftInv (db : DB) (fs0 fs : FS) (m : Bytes × Bytes → Option Bytes) : Prop where
  dirs : ∀ q, fs0.get q = some .dir → fs.get q = some .dir
  content : ∀ u d, GoodSlot db fs0 u d → fs.get (at_ db (.draft u d)) = (m (u, d)).map .file

theorem DraftInv.step {db : DB} {fs0 fs : FS} {m : Bytes × Bytes → Option Bytes} (h : DraftInv db fs0 fs m)
    (op : DraftOp) (hop : GoodSlot db fs0 op.key.1 op.key.2) :
    (op.exec db fs).2 = (op.spec m).2 ∧ DraftInv db fs0 (op.exec db fs).1 (op.spec m).1 ∧
      SameExcept fs (op.exec db fs).1 [at_ db (.draft op.key.1 op.key.2)] := by
  have hlook : ∀ u d, GoodSlot db fs0 u d →
      ∃ p, getUserDraftPath db.home u d = .ok p ∧ fs.lookup db.cwd p = .ok (at_ db (.draft u d)) := by
    intro u d hg
    obtain ⟨l, h1, h2⟩ := hg.dir
    exact draft_lookup hg.user hg.slot hg.slotNul ⟨l, FS.lookup_mono h.dirs h1, h.dirs _ h2⟩
  have hnd : ∀ u d, GoodSlot db fs0 u d → fs.get (at_ db (.draft u d)) ≠ some .dir := by
    intro u d hg
    rw [h.content u d hg]
    cases m (u, d) <;> simp
  cases op with
  | write u d x =>
    obtain ⟨p, hp, hl⟩ := hlook u d hop
    have hn := hnd u d hop
    have he : db.writeUserDraft fs u d x = .ok (fs.set (at_ db (.draft u d)) (.file x)) := by
      simp only [DB.writeUserDraft, hp, Res.ok_bind, FS.writeFile, FS.openCreate_of hl hn]
    simp only [DraftOp.exec, DraftOp.spec, he, DraftOp.key]
    refine ⟨trivial, ⟨fun q hq => FS.set_file_dirs hn q (h.dirs q hq), ?_⟩, ?_⟩
    · intro u' d' hg'
      rw [FS.get_set (FS.ne_root hn)]
      by_cases hk : (u', d') = (u, d)
      · injection hk with a b
        subst a; subst b
        simp
      · rw [if_neg (fun e => hk (draft_at_inj hg'.user hg'.slot hop.user hop.slot e)), if_neg hk, h.content u' d' hg']
    · intro q hq
      rw [FS.get_set (FS.ne_root hn), if_neg (by simpa using hq)]
  | delete u d =>
    obtain ⟨p, hp, hl⟩ := hlook u d hop
    have hn := hnd u d hop
    have hc := h.content u d hop
    cases hm : m (u, d) with
    | none =>
      rw [hm, Option.map_none] at hc
      have he : db.deleteUserDraft fs u d = .err "no such file or directory" := by
        simp only [DB.deleteUserDraft, hp, Res.ok_bind, FS.remove, hl, hc]
      simp only [DraftOp.exec, DraftOp.spec, he, hm]
      exact ⟨trivial, h, fun q _ => rfl⟩
    | some b =>
      rw [hm, Option.map_some] at hc
      have he : db.deleteUserDraft fs u d = .ok (fs.del (at_ db (.draft u d))) := by
        simp only [DB.deleteUserDraft, hp, Res.ok_bind, FS.remove, hl, hc]
      simp only [DraftOp.exec, DraftOp.spec, he, hm, DraftOp.key]
      refine ⟨trivial, ⟨fun q hq => FS.del_file_dirs hn q (h.dirs q hq), ?_⟩, ?_⟩
      · intro u' d' hg'
        rw [FS.get_del (FS.ne_root hn)]
        by_cases hk : (u', d') = (u, d)
        · injection hk with a b
          subst a; subst b
          simp
        · rw [if_neg (fun e => hk (draft_at_inj hg'.user hg'.slot hop.user hop.slot e)), if_neg hk, h.content u' d' hg']
      · intro q hq
        rw [FS.get_del (FS.ne_root hn), if_neg (by simpa using hq)]
  | read u d =>
    obtain ⟨p, hp, hl⟩ := hlook u d hop
    have hc := h.content u d hop
    have he : db.getUserDraft fs u d = .ok ((m (u, d)).getD []) := by
      simp only [DB.getUserDraft, hp, Res.ok_bind, FS.statOk, hl, hc]
      cases hm : m (u, d) with
      | none => rfl
      | some b =>
        rw [hm, Option.map_some] at hc
        rw [FS.readFile_of hl, hc]
        rfl
    simp only [DraftOp.exec, DraftOp.spec, he]
    exact ⟨trivial, h, fun q _ => rfl⟩

/-- C23: for every history of draft operations on well-formed ids of users that have a directory, every operation
gives the result of the map from (user, slot) to content, starting from the present contents; afterwards the slots
hold what the map says; and no other location of the file system changes. -/
theorem C23_drafts_refine_map (db : DB) (fs : FS) (ops : List DraftOp)
    (hops : ∀ op ∈ ops, GoodSlot db fs op.key.1 op.key.2) :
    let m0 : Bytes × Bytes → Option Bytes := fun k => fileAt fs (at_ db (.draft k.1 k.2))
    (DraftOp.execAll db fs ops).2 = (DraftOp.specAll m0 ops).2 ∧
    (∀ u d, GoodSlot db fs u d →
      fileAt (DraftOp.execAll db fs ops).1 (at_ db (.draft u d)) = (DraftOp.specAll m0 ops).1 (u, d)) ∧
    SameExcept fs (DraftOp.execAll db fs ops).1 (ops.map (fun op => at_ db (.draft op.key.1 op.key.2))) := by
  intro m0
  have key : ∀ (ops : List DraftOp) (fs' : FS) (m : Bytes × Bytes → Option Bytes), DraftInv db fs fs' m →
      (∀ op ∈ ops, GoodSlot db fs op.key.1 op.key.2) →
      (DraftOp.execAll db fs' ops).2 = (DraftOp.specAll m ops).2 ∧
      DraftInv db fs (DraftOp.execAll db fs' ops).1 (DraftOp.specAll m ops).1 ∧
      SameExcept fs' (DraftOp.execAll db fs' ops).1 (ops.map (fun op => at_ db (.draft op.key.1 op.key.2))) := by
    intro ops
    induction ops with
    | nil => intro fs' m hi _; exact ⟨rfl, hi, fun q _ => rfl⟩
    | cons op ops ih =>
      intro fs' m hi hg
      obtain ⟨a, b, c⟩ := hi.step op (hg op (by simp))
      obtain ⟨a', b', c'⟩ := ih _ _ b (fun o ho => hg o (by simp [ho]))
      refine ⟨?_, b', ?_⟩
      · simp only [DraftOp.execAll, DraftOp.specAll, a, a']
      · intro q hq
        simp only [List.map_cons, List.mem_cons, not_or] at hq
        have := c' q hq.2
        simp only [DraftOp.execAll]
        rw [this]
        exact c q (by simpa using hq.1)
  have h0 : DraftInv db fs fs m0 := by
    refine ⟨fun q hq => hq, ?_⟩
    intro u d hg
    have := hg.notDir
    simp only [m0, fileAt]
    cases hn : fs.get (at_ db (.draft u d)) with
    | none => rfl
    | some n =>
      cases n with
      | dir => exact absurd hn this
      | file b => rfl
  obtain ⟨a, b, c⟩ := key ops fs m0 h0 hops
  refine ⟨a, ?_, c⟩
  intro u d hg
  simp only [fileAt, b.content u d hg]
  cases (DraftOp.specAll m0 ops).1 (u, d) <;> rfl

/-- The file system of the examples: `/bbs` with user `Ab` and board `S`. -/
def sampleFS : FS :=
  ⟨[([ascii "bbs"], .dir), ([ascii "bbs", ascii "home"], .dir), ([ascii "bbs", ascii "home", ascii "A"], .dir),
    ([ascii "bbs", ascii "home", ascii "A", ascii "Ab"], .dir), ([ascii "bbs", ascii "boards"], .dir),
    ([ascii "bbs", ascii "boards", ascii "S"], .dir), ([ascii "bbs", ascii "boards", ascii "S", ascii "S"], .dir)]⟩

def sampleDB : DB := ⟨ascii "/bbs", []⟩

/-- Non-vacuity of C23: a slot of an existing user, and a history on it. -/
example : GoodSlot sampleDB sampleFS (ascii "Ab") (ascii "1") :=
  ⟨⟨by decide, by decide, by decide, by decide⟩, ⟨by decide, by decide, by decide, by decide⟩, by decide,
    ⟨[ascii "bbs", ascii "home", ascii "A", ascii "Ab"], by decide +kernel, by decide +kernel⟩, by decide +kernel⟩
example : (DraftOp.execAll sampleDB sampleFS
    [.read (ascii "Ab") (ascii "1"), .write (ascii "Ab") (ascii "1") (ascii "hello"),
     .write (ascii "Ab") (ascii "2") (ascii "x"), .read (ascii "Ab") (ascii "1"),
     .delete (ascii "Ab") (ascii "1"), .read (ascii "Ab") (ascii "1"), .read (ascii "Ab") (ascii "2")]).2 =
    [.ok (some []), .ok none, .ok none, .ok (some (ascii "hello")), .ok none, .ok (some []), .ok (some (ascii "x"))] := by
  decide +kernel

/-- C23, a user without a directory: nothing can be stored, and every draft reads as empty. -/
theorem C23_no_directory (db : DB) (fs : FS) (u d x p : Bytes) (hp : getUserDraftPath db.home u d = .ok p)
    (hno : ∀ l, fs.lookup db.cwd p ≠ .ok l) :
    (∀ fs', db.writeUserDraft fs u d x ≠ .ok fs') ∧ (∀ fs', db.deleteUserDraft fs u d ≠ .ok fs') ∧
    db.getUserDraft fs u d = .ok [] := by
  refine ⟨?_, ?_, ?_⟩
  · intro fs' h
    simp only [DB.writeUserDraft, hp, Res.ok_bind, FS.writeFile] at h
    obtain ⟨⟨l, y⟩, h1, _⟩ := Res.bind_eq_ok.mp h
    exact hno l (FS.openCreate_ok h1).1
  · intro fs' h
    simp only [DB.deleteUserDraft, hp, Res.ok_bind, FS.remove] at h
    obtain ⟨l, h1, _⟩ := Res.bind_eq_ok.mp h
    exact hno l h1
  · simp only [DB.getUserDraft, hp, Res.ok_bind]
    have : fs.statOk db.cwd p = false := by
      unfold FS.statOk
      split
      · rename_i l h; exact absurd h (hno l)
      · rfl
    rw [this]
    rfl

/-- Non-vacuity of `C23_no_directory`: user `Zed` has no directory. -/
example : ∃ p, getUserDraftPath sampleDB.home (ascii "Zed") (ascii "1") = .ok p ∧
    sampleFS.lookup sampleDB.cwd p = .err "no such file or directory" :=
  ⟨_, rfl, by decide +kernel⟩

end Verif
