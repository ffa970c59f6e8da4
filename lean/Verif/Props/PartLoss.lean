import Verif.Props.PowerLoss
import Verif.Model.PartLoss
import Verif.Props.RefusedClients
/-!
# C155: the power fails, and files were stored in parts
-/

namespace Verif

open Spec

/-- A file to which was added, with NULs for some of the bytes that were added. -/
def Spec.AddedWithHoles (a b z : Option Node) : Prop :=
  (a = b) ∨ ∃ d x y w, (a = some (.file d) ∨ a = none ∧ d = []) ∧ b = some (.file (d ++ x)) ∧ z = some (.file (d ++ y ++ w)) ∧ x.length = y.length ∧
    ∀ i : Nat, x[i]? = some 0 ∨ x[i]? = y[i]?

theorem moment_added {db : DB} {c : Codec} {fs : FS} {ops : List Call} {l : Path} {M : FS}
    (h : ∀ op ∈ ops, ∀ p, rewrites db op = .ok p → ∀ fs' : FS, fs'.lookup db.cwd p ≠ .ok l) (hM : Call.Moment db c fs ops M) :
    AddedTo (fs.get l) (M.get l) ∧ AddedTo (M.get l) ((Call.execAll db c fs ops).1.get l) := by
  obtain ⟨pre, op, post, ns, k, e, rfl⟩ := hM
  subst e
  obtain ⟨h1, h2⟩ := grown_left (l := l) (fun p hp => h op (by simp) p hp _) (C121_left db c (Call.execAll db c fs pre).1 op ns k)
  refine ⟨(grown_all pre fs fun op' ho => h op' (by simp [ho])).trans h1, h2.trans ?_⟩
  rw [execAll_append]
  exact grown_all post _ fun op' ho => h op' (by simp [ho])

theorem addedTo_file {a : Option Node} {x : Bytes} (h : AddedTo (some (.file x)) a) : ∃ w, a = some (.file (x ++ w)) := by
  rcases h with rfl | ⟨d, y, h1 | h1, rfl⟩
  · exact ⟨[], by rw [List.append_nil]⟩
  · cases h1; exact ⟨y, rfl⟩
  · cases h1.1

theorem addedTo_of_file {a : Option Node} {x : Bytes} (h : AddedTo a (some (.file x))) : ∃ d w, (a = some (.file d) ∨ a = none ∧ d = []) ∧ x = d ++ w := by
  rcases h with rfl | ⟨d, y, h1, h2⟩
  · exact ⟨x, [], .inl rfl, by rw [List.append_nil]⟩
  · cases h2; exact ⟨d, y, h1, rfl⟩

/-- **C155, what is only added to.** The power fails and files were stored in parts. A file to which nothing was done but adding has what was stored, and
behind it as many bytes as a beginning of what was added, each of them the one that was added or NUL. -/
theorem C155_added (db : DB) (c : Codec) (fs : FS) (ops : List Call) (D : FS) (l : Path)
    (h : ∀ op ∈ ops, ∀ p, rewrites db op = .ok p → ∀ fs' : FS, fs'.lookup db.cwd p ≠ .ok l) (hD : Call.PartLoss db c fs ops D) :
    AddedWithHoles (fs.get l) (D.get l) ((Call.execAll db c fs ops).1.get l) := by
  have plain : ∀ x, D.get l = x → (∃ M, Call.Moment db c fs ops M ∧ D.get l = M.get l) → AddedWithHoles (fs.get l) (D.get l) ((Call.execAll db c fs ops).1.get l) := by
    rintro x - ⟨M, hM, e⟩
    obtain ⟨h1, h2⟩ := moment_added h hM
    rw [e]
    rcases h1 with h1 | ⟨d, y, h1, h3⟩
    · exact .inl h1
    · rw [h3] at h2 ⊢
      obtain ⟨w, hw⟩ := addedTo_file h2
      exact .inr ⟨d, y, y, w, h1, rfl, hw, rfl, fun i => .inr rfl⟩
  rcases hD l with h0 | ⟨x, x0, M, e, hM, eM, hlen, hb⟩
  · exact plain _ rfl h0
  · obtain ⟨h1, h2⟩ := moment_added h hM
    rw [eM] at h1 h2
    obtain ⟨d, y, h3, rfl⟩ := addedTo_of_file h1
    obtain ⟨w, hw⟩ := addedTo_file h2
    have byte : ∀ i b, x[i]? = some b → (b = 0 ∧ d.length ≤ i) ∨ (d ++ y)[i]? = some b := by
      intro i b hi
      have hil : i < (d ++ y).length := by
        rw [← hlen]
        exact (List.getElem?_eq_some_iff.mp hi).1
      rcases hb i b hi with ⟨h0, h4⟩ | ⟨M', x1, hM', e', h4⟩
      · left
        refine ⟨h0, ?_⟩
        rcases h3 with h3 | ⟨_, rfl⟩
        · exact h4 d h3
        · exact Nat.zero_le _
      · right
        obtain ⟨-, h5⟩ := moment_added h hM'
        rw [e'] at h5
        obtain ⟨w', hw'⟩ := addedTo_file h5
        rw [hw] at hw'
        have ew : d ++ y ++ w = x1 ++ w' := by injection hw' with h; injection h with h
        have i1 : i < x1.length := (List.getElem?_eq_some_iff.mp h4).1
        rw [← List.getElem?_append_left (l₂ := w) hil, ew, List.getElem?_append_left i1]
        exact h4
    have hd : x.take d.length = d := by
      refine List.ext_getElem? fun i => ?_
      by_cases hi : i < d.length
      · rw [List.getElem?_take_of_lt hi]
        have hx : i < x.length := by rw [hlen, List.length_append]; omega
        rw [List.getElem?_eq_getElem hx]
        rcases byte i _ (List.getElem?_eq_getElem hx) with ⟨_, h6⟩ | h6
        · omega
        · rw [← h6, List.getElem?_append_left hi]
      · rw [List.getElem?_eq_none (by rw [List.length_take]; omega), List.getElem?_eq_none (by omega)]
    have hx : x = d ++ x.drop d.length := by conv => lhs; rw [← List.take_append_drop d.length x, hd]
    refine .inr ⟨d, x.drop d.length, y, w, h3, ?_, hw, ?_, fun i => ?_⟩
    · rw [e, ← hx]
    · rw [List.length_drop, hlen, List.length_append]; omega
    · rw [List.getElem?_drop]
      cases hi : x[d.length + i]? with
      | none =>
        right
        have := List.getElem?_eq_none_iff.mp hi
        rw [hlen, List.length_append] at this
        rw [List.getElem?_eq_none (by omega)]
      | some b =>
        rcases byte _ _ hi with ⟨rfl, _⟩ | h6
        · exact .inl rfl
        · right
          rw [← h6, List.getElem?_append_right (by omega), Nat.add_sub_cancel_left]

/-- What `Call.PowerLoss` leaves is left here too. -/
theorem C155_whole_files {db : DB} {c : Codec} {fs : FS} {ops : List Call} {D : FS} (h : Call.PowerLoss db c fs ops D) : Call.PartLoss db c fs ops D := by
  intro l
  obtain ⟨pre, op, post, ns, k, e, h⟩ := h l
  exact .inl ⟨_, ⟨pre, op, post, ns, k, e, rfl⟩, h⟩


/-! ## Lists -/

/-- No call of `ops` changes the place `l` otherwise than by adding to it. -/
def Spec.OnlyGrows (db : DB) (ops : List Call) (l : Path) : Prop :=
  ∀ op ∈ ops, ∀ p, rewrites db op = .ok p → ∀ fs' : FS, fs'.lookup db.cwd p ≠ .ok l

/-- What is listed after the power has failed in one of the ways `loss`, when the length of the list is one of whole records: records that were stored, or
that were added. -/
def Spec.OnlyRecords (loss : DB → Codec → FS → List Call → FS → Prop) : Prop :=
  ∀ db c fs ops D b, Placed db fs (.articleIndex b) → 128 ∣ ((holdings db fs (.articleIndex b)).getD []).length →
    (∀ l, l = at_ db (.articleIndex b) ∨ fs.get l = some .dir → OnlyGrows db ops l) → loss db c fs ops D →
    128 ∣ ((holdings db D (.articleIndex b)).getD []).length →
    ∀ rs, listed db c D b = .ok (.articles rs) → ∃ all, listed db c (Call.execAll db c fs ops).1 b = .ok (.articles all) ∧ ∀ r ∈ rs, r ∈ all

theorem dir_holed {b z : Option Node} (h : AddedWithHoles (some .dir) b z) : b = some .dir := by
  rcases h with h | ⟨d, x, y, w, h | h, _⟩
  · exact h.symm
  · cases h
  · cases h.1

theorem dir_added {b : Option Node} (h : AddedTo (some .dir) b) : b = some .dir := by
  rcases h with h | ⟨d, x, h | h, _⟩
  · exact h.symm
  · cases h
  · cases h.1

/-- An object stays where it is. -/
theorem placed_still {db : DB} {fs D : FS} {o : Obj} (ho : Placed db fs o) (dirs : ∀ l, fs.get l = some .dir → D.get l = some .dir)
    (hn : D.get (at_ db o) ≠ some .dir) : Placed db D o := by
  obtain ⟨h1, h2, ⟨p, l, h3, h4⟩, -⟩ := ho
  exact ⟨h1, h2, ⟨p, l, h3, FS.lookup_mono dirs h4⟩, hn⟩

theorem placed_part {db : DB} {c : Codec} {fs : FS} {ops : List Call} {D : FS} {o : Obj} (ho : Placed db fs o)
    (h : ∀ l, l = at_ db o ∨ fs.get l = some .dir → OnlyGrows db ops l) (hD : Call.PartLoss db c fs ops D) : Placed db D o := by
  refine placed_still ho (fun l hl => ?_) ?_
  · have := C155_added db c fs ops D l (h l (.inr hl)) hD
    rw [hl] at this
    exact dir_holed this
  · rcases C155_added db c fs ops D _ (h _ (.inl rfl)) hD with e | ⟨d, x, y, w, -, e, -⟩
    · rw [← e]; exact ho.notDir
    · rw [e]; simp

theorem placed_end {db : DB} {c : Codec} {fs : FS} {ops : List Call} {o : Obj} (ho : Placed db fs o)
    (h : ∀ l, l = at_ db o ∨ fs.get l = some .dir → OnlyGrows db ops l) : Placed db (Call.execAll db c fs ops).1 o := by
  refine placed_still ho (fun l hl => ?_) ?_
  · have := grown_all (c := c) ops fs (h l (.inr hl))
    rw [hl] at this
    exact dir_added this
  · rcases grown_all (c := c) ops fs (h _ (.inl rfl)) with e | ⟨d, x, -, e⟩
    · rw [← e]; exact ho.notDir
    · rw [e]; simp

/-- The bytes of a place. -/
def Spec.bytesOf : Option Node → Bytes
  | some (.file d) => d
  | _ => []

theorem holdings_bytes (db : DB) (fs : FS) (o : Obj) : (holdings db fs o).getD [] = bytesOf (fs.get (at_ db o)) := by
  unfold holdings fileAt
  rcases fs.get (at_ db o) with _ | _ | d <;> rfl

theorem added_bytes {a b : Option Node} (h : AddedTo a b) : ∃ x, bytesOf b = bytesOf a ++ x := by
  rcases h with rfl | ⟨d, x, h | ⟨h, rfl⟩, rfl⟩
  · exact ⟨[], by rw [List.append_nil]⟩
  · rw [h]; exact ⟨x, rfl⟩
  · rw [h]; exact ⟨x, rfl⟩

/-- **C155, whole files.** If every file is stored as a whole (C129), what is listed is what was stored or added. -/
theorem C155_records : OnlyRecords Call.PowerLoss := by
  intro db c fs ops D b hb _ h hD hw rs hrs
  have h1 := placed_part hb h (C155_whole_files hD)
  have h2 : Placed db (Call.execAll db c fs ops).1 (.articleIndex b) := placed_end hb h
  rw [listed_eq h1] at hrs
  cases hrs
  refine ⟨_, listed_eq h2, fun r hr => ?_⟩
  obtain ⟨x, hx⟩ := added_bytes (C129_added db c fs ops D _ (h _ (.inl rfl)) hD).2
  rw [holdings_bytes] at hw hr ⊢
  obtain ⟨more, -, e⟩ := articlesIn_prefix c (x := x) (n := x.length) hw (by omega)
  rw [hx, e]
  exact List.mem_append_left _ hr

/-- **C155, parts of files.** The old records are listed as they were, and behind them at most as many further ones as were added. -/
theorem C155_partial (db : DB) (c : Codec) (fs : FS) (ops : List Call) (D : FS) (b : Bytes) (n : Nat) (hb : Placed db fs (.articleIndex b))
    (h128 : 128 ∣ ((holdings db fs (.articleIndex b)).getD []).length)
    (h : ∀ l, l = at_ db (.articleIndex b) ∨ fs.get l = some .dir → OnlyGrows db ops l) (hD : Call.PartLoss db c fs ops D)
    (hn : ((holdings db (Call.execAll db c fs ops).1 (.articleIndex b)).getD []).length ≤ ((holdings db fs (.articleIndex b)).getD []).length + 128 * n) :
    ∃ old more, listed db c fs b = .ok (.articles old) ∧ listed db c D b = .ok (.articles (old ++ more)) ∧ more.length ≤ n := by
  rw [listed_eq hb, listed_eq (placed_part hb h hD)]
  rw [holdings_bytes] at h128 hn ⊢
  rw [holdings_bytes] at hn ⊢
  rcases C155_added db c fs ops D _ (h _ (.inl rfl)) hD with e | ⟨d, x, y, w, e1, e2, e3, e4, -⟩
  · exact ⟨_, [], rfl, by rw [e, List.append_nil], Nat.zero_le _⟩
  · have ed : bytesOf (fs.get (at_ db (.articleIndex b))) = d := by
      rcases e1 with e1 | ⟨e1, rfl⟩ <;> rw [e1] <;> rfl
    rw [e3] at hn
    rw [ed] at h128 hn ⊢
    rw [e2]
    have hx : x.length ≤ 128 * n := by
      have : (bytesOf (some (.file (d ++ y ++ w)))).length = d.length + y.length + w.length := by simp [bytesOf, Nat.add_assoc]
      omega
    obtain ⟨more, h4, h5⟩ := articlesIn_prefix c h128 hx
    exact ⟨_, more, rfl, by rw [show bytesOf (some (.file (d ++ x))) = d ++ x from rfl, h5], h4⟩

/-! ## One call: exactly what can be left -/

/-- What the call adds to its file. -/
def Spec.added (c : Codec) : Call → Option Bytes
  | .addBoard r => some (r.marshal c)
  | .addRecord _ r => some (r.marshal c)
  | .appendArticle _ _ x => some x
  | _ => none

theorem begun_added {c : Codec} {op : Call} {z : Bytes} (h : added c op = some z) (k : Nat) (old : Bytes) : begun c k old op = old ++ z.take k := by
  cases op with
  | addBoard r => rw [← Option.some.inj (show some (r.marshal c) = some z from h)]; rfl
  | addRecord b r => rw [← Option.some.inj (show some (r.marshal c) = some z from h)]; rfl
  | appendArticle b f x => rw [← Option.some.inj (show some x = some z from h)]; rfl
  | _ => cases h

theorem moment_of_left {db : DB} {c : Codec} {fs D : FS} {op : Call} (h : Left db c fs op D) : ∃ M, Call.Moment db c fs [op] M ∧ ∀ q, D.get q = M.get q := by
  obtain ⟨ns, k, h⟩ := (C121_exact db c fs op D).mpr h
  exact ⟨_, ⟨[], op, [], ns, k, rfl, rfl⟩, h⟩

/-- The first bytes of what is added are on the disk, any of them being NUL. -/
theorem part_of {db : DB} {c : Codec} {fs : FS} {op : Call} {p z old x : Bytes} {l : Path} (h1 : target db op = .ok p) (h2 : fs.lookup db.cwd p = .ok l)
    (h3 : fs.get l = some (.file old)) (hz : added c op = some z) (hl : x.length ≤ z.length)
    (hx : ∀ i : Nat, i < x.length → x[i]? = some 0 ∨ x[i]? = z[i]?) : Call.PartLoss db c fs [op] (fs.set l (.file (old ++ x))) := by
  have hroot : l ≠ [] := FS.ne_root (fs := fs) (by rw [h3]; simp)
  have L : ∀ k, ∃ M, Call.Moment db c fs [op] M ∧ M.get l = some (.file (old ++ z.take k)) := by
    intro k
    obtain ⟨M, hM, e⟩ := moment_of_left (db := db) (c := c) (fs := fs) (op := op) (D := fs.set l (.file (old ++ z.take k)))
      (.inr (.inr ⟨p, l, old, k, h1, h2, .inl h3, by rw [FS.get_set hroot, if_pos rfl, begun_added hz], set_except hroot _⟩))
    exact ⟨M, hM, by rw [← e, FS.get_set hroot, if_pos rfl]⟩
  intro q
  by_cases hq : q = l
  · subst hq
    right
    obtain ⟨M, hM, e⟩ := L x.length
    refine ⟨old ++ x, _, M, by rw [FS.get_set hroot, if_pos rfl], hM, e, by simp [Nat.min_eq_left hl], fun i b hi => ?_⟩
    by_cases ho : i < old.length
    · right
      refine ⟨M, _, hM, e, ?_⟩
      rw [List.getElem?_append_left ho] at hi ⊢
      exact hi
    · rw [List.getElem?_append_right (by omega)] at hi
      have hil := (List.getElem?_eq_some_iff.mp hi).1
      rcases hx _ hil with h | h
      · rw [h] at hi
        cases hi
        left
        refine ⟨rfl, fun d hd => ?_⟩
        rw [h3] at hd
        cases hd
        omega
      · right
        refine ⟨M, _, hM, e, ?_⟩
        rw [List.getElem?_append_right (by omega), List.getElem?_take_of_lt hil, ← h, hi]
  · left
    obtain ⟨M, hM, e⟩ := moment_of_left (db := db) (c := c) (fs := fs) (op := op) (D := fs) (.inl (same_refl fs))
    exact ⟨M, hM, by rw [FS.get_set hroot, if_neg hq, e]⟩

/-- **C155, the exact law for one call.** A record or a comment is being added to a file when the power fails. The file can be found with the old bytes and
any number of the first new ones, any of these being NUL; and with nothing else. -/
theorem C155_exact (db : DB) (c : Codec) (fs : FS) (op : Call) (p z old v : Bytes) (l : Path) (h1 : target db op = .ok p) (h2 : fs.lookup db.cwd p = .ok l)
    (h3 : fs.get l = some (.file old)) (hz : added c op = some z) :
    (∃ D, Call.PartLoss db c fs [op] D ∧ D.get l = some (.file v)) ↔
      ∃ x, v = old ++ x ∧ x.length ≤ z.length ∧ ∀ i : Nat, i < x.length → x[i]? = some 0 ∨ x[i]? = z[i]? := by
  have hroot : l ≠ [] := FS.ne_root (fs := fs) (by rw [h3]; simp)
  constructor
  · rintro ⟨D, hD, e⟩
    have hg : ∀ op' ∈ [op], ∀ p, rewrites db op' = .ok p → ∀ fs' : FS, fs'.lookup db.cwd p ≠ .ok l := by
      intro op' ho p hp
      rw [List.mem_singleton.mp ho] at hp
      cases op with
      | addBoard r => cases hp
      | addRecord b r => cases hp
      | appendArticle b f x => cases hp
      | _ => cases hz
    have hA := C155_added db c fs [op] D l hg hD
    obtain ⟨m, hm⟩ := exec_whole (c := c) h1 h2 (.inl h3)
    have hend : (Call.execAll db c fs [op]).1.get l = some (.file (old ++ z)) := by
      show ((op.exec db c fs).1).get l = _
      rw [hm (max m z.length) (Nat.le_max_left ..), FS.get_set hroot, if_pos rfl, begun_added hz, List.take_of_length_le (Nat.le_max_right ..)]
    rw [h3, e, hend] at hA
    rcases hA with hA | ⟨d, x, y, w, hd, e1, e2, e3, e4⟩
    · injection hA with hA
      injection hA with hA
      exact ⟨[], by rw [← hA, List.append_nil], Nat.zero_le _, fun i hi => absurd hi (Nat.not_lt_zero i)⟩
    · have hd : old = d := by
        rcases hd with hd | hd
        · injection hd with hd; injection hd
        · cases hd.1
      subst hd
      injection e1 with e1
      injection e1 with e1
      injection e2 with e2
      injection e2 with e2
      rw [List.append_assoc] at e2
      have e2 := List.append_cancel_left e2
      refine ⟨x, e1, by rw [e2, List.length_append]; omega, fun i hi => ?_⟩
      rw [e2, List.getElem?_append_left (by omega)]
      exact e4 i
  · rintro ⟨x, rfl, hl, hx⟩
    exact ⟨_, part_of h1 h2 h3 hz hl hx, by rw [FS.get_set hroot, if_pos rfl]⟩

/-! ## A record that nobody added -/

/-- A list of articles that is empty. -/
def clearListFS : FS := sampleFS.set (at_ sampleDB (.articleIndex (ascii "S"))) (.file [])

/-- A record was added; its length was stored, and its bytes were not. -/
def holeFS : FS := clearListFS.set (at_ sampleDB (.articleIndex (ascii "S"))) (.file ([] ++ zeros 128))

theorem hole_loss : Call.PartLoss sampleDB asciiCodec clearListFS [.addRecord (ascii "S") newRecord] holeFS := by
  have h : (getBoardArticlesDirectoryPath sampleDB.home (ascii "S")).bind (fun p => clearListFS.lookup sampleDB.cwd p) =
      .ok (at_ sampleDB (.articleIndex (ascii "S"))) := by decide +kernel
  obtain ⟨p, h1, h2⟩ := Res.bind_eq_ok.mp h
  refine part_of (z := newRecord.marshal asciiCodec) h1 h2 (by decide +kernel) rfl (by decide +kernel) fun i hi => .inl ?_
  rw [zeros] at hi ⊢
  rw [List.getElem?_replicate, if_pos (by simpa using hi)]

theorem hole_first : Spec.firstName (listed sampleDB asciiCodec holeFS (ascii "S")) = some [] := by decide +kernel

theorem hole_grows (l : Path) : OnlyGrows sampleDB [.addRecord (ascii "S") newRecord] l := by
  intro op ho p hp
  rw [List.mem_singleton.mp ho] at hp
  cases hp

theorem empty_placed : Placed sampleDB clearListFS (.articleIndex (ascii "S")) := placed_set sample_placed.2.1 sample_placed.2.1 _

/-- **C155 is false of files that are stored in parts:** the list shows a record, with no file name, that nobody added. -/
theorem C155_records_refuted : ¬ OnlyRecords Call.PartLoss := by
  intro H
  have hl : listed sampleDB asciiCodec holeFS (ascii "S") = .ok (.articles (articlesIn asciiCodec ((holdings sampleDB holeFS (.articleIndex (ascii "S"))).getD []))) :=
    listed_eq (placed_part empty_placed (fun l _ => hole_grows l) hole_loss)
  obtain ⟨all, h1, h2⟩ := H sampleDB asciiCodec clearListFS _ holeFS (ascii "S") empty_placed (by decide +kernel) (fun l _ => hole_grows l) hole_loss
    (by decide +kernel) _ hl
  rw [listed_eq (placed_end empty_placed fun l _ => hole_grows l)] at h1
  injection h1 with h1
  injection h1 with h1
  rw [← h1] at h2
  have hf : ∀ r ∈ articlesIn asciiCodec ((holdings sampleDB (Call.execAll sampleDB asciiCodec clearListFS [.addRecord (ascii "S") newRecord]).1
      (.articleIndex (ascii "S"))).getD []), r.filename ≠ [] := by decide +kernel
  have hm : ∃ r ∈ articlesIn asciiCodec ((holdings sampleDB holeFS (.articleIndex (ascii "S"))).getD []), r.filename = [] := by decide +kernel
  obtain ⟨r, h3, h4⟩ := hm
  exact hf r (h2 r h3) h4

/-- The hypotheses of `C155_partial` and `C155_added`, with a list that has one record more, and of `C155_exact`. -/
example : Placed sampleDB clearListFS (.articleIndex (ascii "S")) ∧ 128 ∣ ((holdings sampleDB clearListFS (.articleIndex (ascii "S"))).getD []).length ∧
    (∀ l, OnlyGrows sampleDB [.addRecord (ascii "S") newRecord] l) ∧
    Call.PartLoss sampleDB asciiCodec clearListFS [.addRecord (ascii "S") newRecord] holeFS ∧
    ((holdings sampleDB (Call.execAll sampleDB asciiCodec clearListFS [.addRecord (ascii "S") newRecord]).1 (.articleIndex (ascii "S"))).getD []).length = 128 ∧
    Spec.firstName (listed sampleDB asciiCodec holeFS (ascii "S")) = some [] :=
  ⟨empty_placed, by decide +kernel, hole_grows, hole_loss, by decide +kernel, hole_first⟩

/-- The hypotheses of `C155_records`: the record was stored as a whole. -/
example : Call.PowerLoss sampleDB asciiCodec clearListFS [.addRecord (ascii "S") newRecord]
      (Call.execAll sampleDB asciiCodec clearListFS [.addRecord (ascii "S") newRecord]).1 ∧
    Spec.firstName (listed sampleDB asciiCodec (Call.execAll sampleDB asciiCodec clearListFS [.addRecord (ascii "S") newRecord]).1 (ascii "S")) = some newName :=
  ⟨(C129_one_call _ _ _ _ _).mpr (.inr (.inl (same_refl _))), by decide +kernel⟩

/-! ## Several clients -/

/-- Nothing that the job may come to changes what is at `l` otherwise than by adding to it. -/
def Spec.JobAdds (cwd : Path) (l : Path) : Job → Prop
  | .done _ => True
  | .stat _ k => ∀ b, JobAdds cwd l (k b)
  | .openRead _ k => ∀ r : Res Path, JobAdds cwd l (k r)
  | .openWrite p k => ∀ r : Res Path, (∀ l', r = .ok l' → l' = resolve cwd p) → JobAdds cwd l (k r)
  | .openMake p k => ∀ r : Res Path, (∀ l', r = .ok l' → l' = resolve cwd p) → JobAdds cwd l (k r)
  | .openTrunc p k => resolve cwd p ≠ l ∧ ∀ r : Res Path, (∀ l', r = .ok l' → l' = resolve cwd p) → JobAdds cwd l (k r)
  | .openExcl _ k => ∀ b, JobAdds cwd l (k b)
  | .read _ _ _ _ k => ∀ r, JobAdds cwd l (k r)
  | .append _ _ k => JobAdds cwd l k
  | .put l' _ k => l' ≠ l ∧ JobAdds cwd l k
  | .unlink p k => resolve cwd p ≠ l ∧ ∀ r, JobAdds cwd l (k r)

theorem adds_orStop {cwd l : Path} {α : Type} {k : α → Job} {r : Res α} (h : ∀ a, r = .ok a → JobAdds cwd l (k a)) : JobAdds cwd l (Job.orStop k r) := by
  cases r with
  | ok a => exact h a rfl
  | err e => trivial
  | panic => trivial
  | diverge => trivial

theorem adds_readList {cwd l : Path} {α : Type} {p : Bytes} {size : Nat} {parse : Bytes → Res α} {k : List α → Job} (hk : ∀ x, JobAdds cwd l (k x)) :
    JobAdds cwd l (Job.readList p size parse k) :=
  fun _ => adds_orStop fun _ _ _ => adds_orStop fun _ _ => adds_orStop fun _ _ => hk _

theorem adds_readWhole {cwd l : Path} {p : Bytes} {k : Bytes → Job} (hk : ∀ x, JobAdds cwd l (k x)) : JobAdds cwd l (Job.readWhole p k) :=
  fun _ => adds_orStop fun _ _ _ => adds_orStop fun _ _ => hk _

theorem adds_tryNames {db : DB} {cwd l : Path} {b o d t : Bytes} {draw : Nat → Int × Fin 4096} :
    ∀ fuel k, JobAdds cwd l (Job.tryNames db b o d t draw fuel k)
  | 0, _ => trivial
  | fuel + 1, k => by
    unfold Job.tryNames
    refine adds_orStop fun p hp r => ?_
    cases r with
    | true => trivial
    | false => exact adds_tryNames fuel (k + 1)

/-- The call does not rewrite what is at `l`. -/
def Spec.CallAdds (db : DB) (l : Path) (op : Call) : Prop := ∀ p, rewrites db op = .ok p → resolve db.cwd p ≠ l

theorem adds_start (db : DB) (c : Codec) (l : Path) {op : Call} (h : CallAdds db l op) : JobAdds db.cwd l (Job.start db c op) := by
  cases op with
  | readUsers => unfold Job.start; exact adds_orStop fun p hp => adds_readList fun _ => trivial
  | readFavourites u =>
    refine adds_orStop fun p hp r => ?_
    cases r with
    | false => trivial
    | true =>
      exact adds_readWhole fun _ => adds_orStop fun _ _ => adds_orStop fun q hq => adds_readList fun _ => adds_orStop fun _ _ => trivial
  | readBoards => unfold Job.start; exact adds_orStop fun p hp => adds_readList fun _ => trivial
  | listArticles b =>
    refine adds_orStop fun p hp r => ?_
    cases r with
    | err e => trivial
    | ok l => exact fun _ => adds_orStop fun _ _ => adds_orStop fun _ _ => trivial
    | panic => trivial
    | diverge => trivial
  | listTreasure b ds => exact adds_orStop fun p hp => adds_readList fun _ => trivial
  | readArticle b f => exact adds_orStop fun p hp => adds_readWhole fun _ => trivial
  | readTreasure b ds f => exact adds_orStop fun p hp => adds_readWhole fun _ => trivial
  | readDraft u d =>
    refine adds_orStop fun p hp r => ?_
    cases r with
    | false => trivial
    | true => exact adds_readWhole fun _ => trivial
  | addBoard r => unfold Job.start; exact adds_orStop fun p hp r _ => adds_orStop fun _ _ => trivial
  | createArticle b o d t draw fuel => exact adds_tryNames fuel 0
  | addRecord b r => exact adds_orStop fun p hp r _ => adds_orStop fun _ _ => trivial
  | appendArticle b f x => exact adds_orStop fun p hp r _ => adds_orStop fun _ _ => trivial
  | writeArticle b f x =>
    exact adds_orStop fun p hp r hr => adds_orStop fun l' e => ⟨by rw [hr l' e]; exact h p hp, trivial⟩
  | deleteDraft u d => exact adds_orStop fun p hp => ⟨h p hp, fun _ => adds_orStop fun _ _ => trivial⟩
  | writeDraft u d x =>
    exact adds_orStop fun p hp => ⟨h p hp, fun r hr => adds_orStop fun l' e => ⟨by rw [hr l' e]; exact h p hp, trivial⟩⟩

theorem added_made {fs : FS} {l l' : Path} (h : fs.get l' = none) : AddedTo (fs.get l) ((fs.set l' (.file [])).get l) := by
  by_cases e : l' = l
  · subst e
    rw [h]
    by_cases hr : l' = []
    · subst hr; cases h
    · rw [FS.get_set hr, if_pos rfl]
      exact .inr ⟨[], [], .inr ⟨rfl, rfl⟩, rfl⟩
  · rw [get_set_ne e]; exact .refl _

theorem added_file {fs : FS} {l l' : Path} {d : Bytes} (x : Bytes) (h : fs.get l' = some (.file d)) : AddedTo (fs.get l) ((fs.set l' (.file (d ++ x))).get l) := by
  by_cases e : l' = l
  · subst e
    have hr : l' ≠ [] := FS.ne_root (fs := fs) (by rw [h]; simp)
    rw [h, FS.get_set hr, if_pos rfl]
    exact .inr ⟨d, x, .inl rfl, rfl⟩
  · rw [get_set_ne e]; exact .refl _

theorem adds_step {cwd l : Path} {j : Job} (h : JobAdds cwd l j) (fs : FS) (n : Nat) :
    AddedTo (fs.get l) ((j.step cwd fs n).1.get l) ∧ JobAdds cwd l (j.step cwd fs n).2 := by
  cases j with
  | done r => exact ⟨.refl _, trivial⟩
  | stat p k => exact ⟨.refl _, h _⟩
  | openRead p k => exact ⟨.refl _, h _⟩
  | openWrite p k => exact ⟨.refl _, h _ fun _ => opened_place⟩
  | openMake p k =>
    simp only [Job.step]
    split
    · next l' d ho =>
      have hl := openCreate_resolve ho
      refine ⟨?_, h _ fun l'' e => by cases e; exact hl⟩
      simp only
      split
      · next hn => exact added_made (Option.isNone_iff_eq_none.mp hn)
      · exact .refl _
    · exact ⟨.refl _, h _ nofun⟩
    · exact ⟨.refl _, h _ nofun⟩
    · exact ⟨.refl _, h _ nofun⟩
  | openTrunc p k =>
    simp only [Job.step]
    split
    · next l' d ho =>
      have hl := openCreate_resolve ho
      refine ⟨?_, h.2 _ fun l'' e => by cases e; exact hl⟩
      rw [get_set_ne (hl ▸ h.1)]
      exact .refl _
    · exact ⟨.refl _, h.2 _ nofun⟩
    · exact ⟨.refl _, h.2 _ nofun⟩
    · exact ⟨.refl _, h.2 _ nofun⟩
  | openExcl p k =>
    simp only [Job.step]
    split
    · next fs' ho =>
      refine ⟨?_, h _⟩
      unfold FS.createExcl at ho
      obtain ⟨l', h1, h2⟩ := Res.bind_eq_ok.mp ho
      split at h2 <;> cases h2
      next hg => exact added_made hg
    · exact ⟨.refl _, h _⟩
  | read l' size got pos k =>
    simp only [Job.step]
    split
    · split
      · exact ⟨.refl _, h⟩
      · exact ⟨.refl _, h _⟩
    · split
      · exact ⟨.refl _, h _⟩
      · exact ⟨.refl _, h⟩
    · exact ⟨.refl _, h _⟩
  | append l' bs k =>
    simp only [Job.step]
    split
    · next d hd => exact ⟨added_file bs hd, h⟩
    · exact ⟨.refl _, h⟩
  | put l' bs k =>
    simp only [Job.step]
    split
    · refine ⟨?_, h.2⟩
      rw [get_set_ne h.1]
      exact .refl _
    · exact ⟨.refl _, h.2⟩
  | unlink p k =>
    simp only [Job.step]
    split
    · next fs' ho =>
      refine ⟨?_, h.2 _⟩
      unfold FS.remove at ho
      obtain ⟨l', h1, h2⟩ := Res.bind_eq_ok.mp ho
      have hl := FS.lookup_eq h1
      have : fs'.get l = fs.get l := by
        split at h2
        · cases h2
        · cases h2
          exact get_del_ne (hl ▸ h.1)
        · split at h2
          · cases h2
          · split at h2 <;> cases h2
            exact get_del_ne (hl ▸ h.1)
      rw [this]
      exact .refl _
    · exact ⟨.refl _, h.2 _⟩
    · exact ⟨.refl _, h.2 _⟩
    · exact ⟨.refl _, h.2 _⟩

theorem adds_halt {cwd l : Path} {j : Job} (h : JobAdds cwd l j) (fs : FS) (k : Nat) : AddedTo (fs.get l) ((j.halt fs k).get l) := by
  cases j with
  | append l' bs k' =>
    simp only [Job.halt]
    split
    · next d hd => exact added_file _ hd
    · exact .refl _
  | put l' bs k' =>
    simp only [Job.halt]
    split
    · rw [get_set_ne h.1]
      exact .refl _
    · exact .refl _
  | _ => exact .refl _

/-- Whatever the client is answered, it does not rewrite what is at `l`. -/
def Spec.ScriptAdds (db : DB) (l : Path) : Script → Prop
  | .stop => True
  | .make op next => CallAdds db l op ∧ ∀ r, ScriptAdds db l (next r)

def Spec.SessionAdds (db : DB) (l : Path) : Session → Prop
  | .idle s => ScriptAdds db l s
  | .busy j next => JobAdds db.cwd l j ∧ ∀ r, ScriptAdds db l (next r)

theorem adders_step {db : DB} {c : Codec} {l : Path} {s : House} (h : ∀ p, SessionAdds db l (s.sessions p)) (p n : Nat) :
    AddedTo (s.fs.get l) ((s.step db c p n).1.fs.get l) ∧ ∀ q, SessionAdds db l ((s.step db c p n).1.sessions q) := by
  have set : ∀ {fs : FS} {x : Session}, SessionAdds db l x → ∀ q, SessionAdds db l ((s.setSession fs p x).sessions q) := by
    intro fs x hx q
    unfold House.setSession
    simp only
    split
    · exact hx
    · exact h q
  have hp := h p
  cases hs : s.sessions p with
  | idle sc =>
    rw [hs] at hp
    cases sc with
    | stop => simp only [House.step, hs]; exact ⟨.refl _, h⟩
    | make op next => simp only [House.step, hs]; exact ⟨.refl _, set ⟨adds_start db c l hp.1, hp.2⟩⟩
  | busy j next =>
    rw [hs] at hp
    have hj := adds_step hp.1 s.fs n
    cases j with
    | done r => simp only [House.step, hs]; exact ⟨.refl _, set (hp.2 r)⟩
    | _ => simp only [House.step, hs]; exact ⟨hj.1, set ⟨hj.2, hp.2⟩⟩

theorem adders_run {db : DB} {c : Codec} {l : Path} (sched : List (Nat × Nat)) : ∀ {s : House}, (∀ p, SessionAdds db l (s.sessions p)) →
    AddedTo (s.fs.get l) ((s.run db c sched).1.fs.get l) ∧ ∀ q, SessionAdds db l ((s.run db c sched).1.sessions q) := by
  induction sched with
  | nil => intro s h; exact ⟨.refl _, h⟩
  | cons x sched ih =>
    intro s h
    obtain ⟨h1, h2⟩ := adders_step (c := c) h x.1 x.2
    obtain ⟨h3, h4⟩ := ih h2
    exact ⟨h1.trans h3, h4⟩

theorem outage_adds {db : DB} {l : Path} {s : House} (h : ∀ p, SessionAdds db l (s.sessions p)) (cuts : List (Nat × Nat)) :
    AddedTo (s.fs.get l) ((s.outage cuts).get l) := by
  unfold House.outage
  generalize s.fs = fs
  induction cuts generalizing fs with
  | nil => exact .refl _
  | cons x cuts ih =>
    refine Spec.AddedTo.trans ?_ (ih _)
    cases hs : s.sessions x.1 with
    | idle sc => simp only [hs]; exact .refl _
    | busy j next =>
      have := h x.1
      rw [hs] at this
      simp only [hs]
      exact adds_halt this.1 fs x.2

/-- **C155, several clients.** Whatever the clients do at other places: a file that they only add to has at least what was stored. -/
theorem C155_clients (db : DB) (c : Codec) (s : House) (sched : List (Nat × Nat)) (D : FS) (l : Path) (h : ∀ p, SessionAdds db l (s.sessions p))
    (hD : s.PartLoss db c sched D) : AddedTo (s.fs.get l) (D.get l) := by
  have moment : ∀ M, s.Moment db c sched M → AddedTo (s.fs.get l) (M.get l) := by
    rintro M ⟨n, cuts, rfl⟩
    obtain ⟨h1, h2⟩ := adders_run (c := c) (sched.take n) h
    exact h1.trans (outage_adds h2 cuts)
  rcases hD l with ⟨M, hM, e⟩ | ⟨x, x0, M, e, hM, eM, hlen, hb⟩
  · rw [e]; exact moment M hM
  · have h1 := moment M hM
    rw [eM] at h1
    obtain ⟨d, y, h3, rfl⟩ := addedTo_of_file h1
    have hd : x.take d.length = d := by
      refine List.ext_getElem? fun i => ?_
      by_cases hi : i < d.length
      · rw [List.getElem?_take_of_lt hi]
        have hx : i < x.length := by rw [hlen, List.length_append]; omega
        have hd : s.fs.get l = some (.file d) := by
          rcases h3 with h3 | ⟨_, rfl⟩
          · exact h3
          · cases hi
        rcases hb i _ (List.getElem?_eq_getElem hx) with ⟨_, h6⟩ | ⟨M', x1, hM', e', h4⟩
        · have := h6 d hd
          omega
        · have h5 := moment M' hM'
          rw [hd, e'] at h5
          obtain ⟨w, hw⟩ := addedTo_file h5
          injection hw with hw
          injection hw with hw
          rw [List.getElem?_eq_getElem hx, ← h4, hw, List.getElem?_append_left hi]
      · rw [List.getElem?_eq_none (by rw [List.length_take]; omega), List.getElem?_eq_none (by omega)]
    have hx : x = d ++ x.drop d.length := by conv => lhs; rw [← List.take_append_drop d.length x, hd]
    rw [e, hx]
    exact .inr ⟨d, _, h3, rfl⟩

/-- **C155, the lists of several clients.** The old records are listed as they were. -/
theorem C155_lists (db : DB) (c : Codec) (s : House) (sched : List (Nat × Nat)) (D : FS) (b : Bytes) (hb : Placed db s.fs (.articleIndex b))
    (h128 : 128 ∣ ((holdings db s.fs (.articleIndex b)).getD []).length)
    (h : ∀ l, l = at_ db (.articleIndex b) ∨ s.fs.get l = some .dir → ∀ p, SessionAdds db l (s.sessions p)) (hD : s.PartLoss db c sched D) :
    ∃ old more, listed db c s.fs b = .ok (.articles old) ∧ listed db c D b = .ok (.articles (old ++ more)) := by
  have hA := C155_clients db c s sched D _ (h _ (.inl rfl)) hD
  have hP : Placed db D (.articleIndex b) := by
    refine placed_still hb (fun l hl => ?_) ?_
    · have := C155_clients db c s sched D l (h l (.inr hl)) hD
      rw [hl] at this
      exact dir_added this
    · rcases hA with e | ⟨d, x, -, e⟩
      · rw [← e]; exact hb.notDir
      · rw [e]; simp
  rw [listed_eq hb, listed_eq hP]
  rw [holdings_bytes] at h128 ⊢
  rw [holdings_bytes]
  obtain ⟨x, hx⟩ := added_bytes hA
  obtain ⟨more, -, h5⟩ := articlesIn_prefix c (x := x) (n := x.length) h128 (by omega)
  exact ⟨_, more, rfl, by rw [hx, h5]⟩

/-- Two clients add a record; the power fails when both have opened the list and the record of the second is being written. -/
def twoAdders : Nat → Script
  | 0 => .make (.addRecord (ascii "S") newRecord) fun _ => .stop
  | 1 => .make (.addRecord (ascii "S") newRecord) fun _ => .stop
  | _ => .stop

theorem adders_loss : (opening clearListFS twoAdders).PartLoss sampleDB asciiCodec [(0, 0), (0, 0), (1, 0), (1, 0)]
    (((opening clearListFS twoAdders).run sampleDB asciiCodec ([(0, 0), (0, 0), (1, 0), (1, 0)].take 4)).1.outage [(1, 20), (0, 128)]) :=
  fun _ => .inl ⟨_, ⟨4, [(1, 20), (0, 128)], rfl⟩, rfl⟩

/-- The hypotheses of `C155_clients` and `C155_lists`: 20 bytes of a record, and then a whole one. -/
example : (∀ l p, SessionAdds sampleDB l ((opening clearListFS twoAdders).sessions p)) ∧
    Placed sampleDB (opening clearListFS twoAdders).fs (.articleIndex (ascii "S")) ∧
    128 ∣ ((holdings sampleDB (opening clearListFS twoAdders).fs (.articleIndex (ascii "S"))).getD []).length ∧
    (fileAt (((opening clearListFS twoAdders).run sampleDB asciiCodec ([(0, 0), (0, 0), (1, 0), (1, 0)].take 4)).1.outage [(1, 20), (0, 128)])
      (at_ sampleDB (.articleIndex (ascii "S")))).map List.length = some 148 := by
  refine ⟨fun l p => ?_, empty_placed, by decide +kernel, by decide +kernel⟩
  match p with
  | 0 => exact ⟨nofun, fun _ => trivial⟩
  | 1 => exact ⟨nofun, fun _ => trivial⟩
  | _ + 2 => exact trivial

end Verif
