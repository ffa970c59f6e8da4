import Verif.Props.FullClients
import Verif.Props.Search
/-!
# C146, the exact law: where a stored record is read when parts of records stand before it
-/

namespace Verif
open Spec

namespace Spec

/-- The number of bytes in the pieces that are only parts. -/
def torn (pieces : List Piece) : Nat := ((pieces.filter (fun x => !x.whole)).map (·.bytes.length)).sum

/-- All bytes of the pieces. -/
def piecesText (pieces : List Piece) : Bytes := (pieces.map (·.bytes)).flatten

end Spec

theorem torn_mod {size : Nat} : ∀ {pieces : List Piece}, (∀ x ∈ pieces, x.whole = true → x.bytes.length = size) →
    (piecesText pieces).length % size = torn pieces % size
  | [], _ => rfl
  | x :: xs, h => by
    have ih := torn_mod fun y hy => h y (List.mem_cons_of_mem _ hy)
    rw [show piecesText (x :: xs) = x.bytes ++ piecesText xs by simp [piecesText], List.length_append]
    cases hw : x.whole with
    | true =>
      rw [h x (List.mem_cons_self ..) hw, Nat.add_mod_left, ih]
      simp [torn, hw]
    | false =>
      have : torn (x :: xs) = x.bytes.length + torn xs := by simp [torn, hw]
      rw [this, Nat.add_mod, ih, ← Nat.add_mod]

/-- The slot in which a record of full size begins, and the next one. -/
theorem slots_place {size : Nat} (hs : 0 < size) (d x z : Bytes) (hx : x.length = size) :
    (slots size (d ++ x ++ z))[d.length / size]? = some (d.drop (size * (d.length / size)) ++ x.take (size - d.length % size)) ∧
    (d.length % size ≠ 0 →
      (slots size (d ++ x ++ z))[d.length / size + 1]? = some (padTo size ((x.drop (size - d.length % size) ++ z).take size))) := by
  have hq := Nat.div_add_mod d.length size
  have hr := Nat.mod_lt d.length hs
  generalize d.length / size = q at *
  generalize hr' : d.length % size = r at *
  have hlen : (d ++ x ++ z).length = size * q + r + size + z.length := by simp; omega
  have h1 : q + 1 ≤ ((d ++ x ++ z).length + size - 1) / size := by
    rw [Nat.le_div_iff_mul_le hs, hlen, Nat.mul_comm, Nat.mul_succ]; omega
  unfold slots
  refine ⟨?_, fun h0 => ?_⟩
  · rw [List.getElem?_map, List.getElem?_range h1]
    show some (slot _ _ _) = _
    unfold slot slice
    rw [List.append_assoc, List.take_append, List.drop_append, show size * q + size - d.length = size - r by omega,
      List.take_of_length_le (by omega), show size * q - d.length = 0 by omega, List.drop_zero,
      List.take_append_of_le_length (by omega), padTo_eq_of_length (by simp; omega)]
  · have h2 : q + 1 < ((d ++ x ++ z).length + size - 1) / size := by
      show q + 1 + 1 ≤ _
      rw [Nat.le_div_iff_mul_le hs, hlen, Nat.mul_comm, Nat.mul_succ, Nat.mul_succ]; omega
    rw [List.getElem?_map, List.getElem?_range h2]
    show some (slot _ _ _) = _
    unfold slot slice
    rw [Nat.mul_succ, List.append_assoc, List.drop_take, List.drop_append, List.drop_eq_nil_of_le (by omega), List.nil_append,
      show size * q + size - d.length = size - r by omega, List.drop_append_of_le_length (by omega),
      show size * q + size + size - (size * q + size) = size by omega]

/-- The law for records of any kind: `rec` is what a call adds, as it reads. -/
theorem full_exact {α : Type} {db : DB} {c : Codec} {fs : FS} {l : Path} {todo : Nat → List Call} {sched : List (Nat × Nat × Option Nat)}
    (size : Nat) (hs : 0 < size) (parse : Bytes → α) (rec : Call → Option α) (hd : size ∣ (bytesAt fs l).length)
    (h : ∀ p, ∀ op ∈ todo p, (∃ bs, addedTo db c l op = some bs ∧ bs.length = size ∧ rec op = some (parse bs)) ∨ (LeavesAlone db l op ∧ rec op = none))
    (hidle : ∀ p, (((fresh fs todo).runIn db c sched).1.clients p).now = none) :
    ∃ pieces : List Piece,
      bytesAt ((fresh fs todo).runIn db c sched).1.fs l = bytesAt fs l ++ piecesText pieces ∧
      (∀ p, (wholeOf p pieces).map parse = (succeeded p none ((fresh fs todo).runIn db c sched).2).filterMap rec) ∧
      (∀ x ∈ pieces, x.whole = false → ∃ op ∈ todo x.client, ∃ bs k n, addedTo db c l op = some bs ∧ (x.client, n, some k) ∈ sched ∧ k < size ∧
        x.bytes = bs.take k) ∧
      (∀ x ∈ pieces, x.whole = true → x.bytes.length = size) ∧
      ∀ a x z, pieces = a ++ x :: z → x.whole = true →
        (torn a % size = 0 →
          ((slots size (bytesAt ((fresh fs todo).runIn db c sched).1.fs l)).map parse)[((bytesAt fs l).length + (piecesText a).length) / size]? =
            some (parse x.bytes)) ∧
        (torn a % size ≠ 0 →
          ((slots size (bytesAt ((fresh fs todo).runIn db c sched).1.fs l)).map parse)[((bytesAt fs l).length + (piecesText a).length) / size]? =
            some (parse ((piecesText a).drop ((piecesText a).length - torn a % size) ++ x.bytes.take (size - torn a % size))) ∧
          ((slots size (bytesAt ((fresh fs todo).runIn db c sched).1.fs l)).map parse)[((bytesAt fs l).length + (piecesText a).length) / size + 1]? =
            some (parse (padTo size ((x.bytes.drop (size - torn a % size) ++ piecesText z).take size)))) := by
  have hin : ∀ {p op}, op ∈ succeeded p none ((fresh fs todo).runIn db c sched).2 → op ∈ todo p := by
    intro p op ho
    rcases succeeded_mem ho with ho | ho
    · cases ho
    · exact called_runIn sched ho
  have hlen : ∀ {p op bs}, op ∈ todo p → addedTo db c l op = some bs → bs.length = size := by
    intro p op bs ho e
    rcases h p op ho with ⟨bs', e', h', _⟩ | ⟨hl, _⟩
    · rw [e'] at e; rw [← Option.some.inj e]; exact h'
    · rw [leaves_added hl] at e; cases e
  obtain ⟨pieces, h1, h2, h3⟩ := C146_pieces db c l fs todo sched fun p op hop =>
    (h p op hop).imp (fun ⟨bs, e, _⟩ => ⟨bs, e⟩) fun e => e.1
  have h4 : ∀ p, wholeOf p pieces = (succeeded p none ((fresh fs todo).runIn db c sched).2).filterMap (addedTo db c l) := by
    intro p
    obtain ⟨u, hu, _, he⟩ := h2 p
    rw [hu, he (hidle p), List.append_nil]
  have hsz : ∀ x ∈ pieces, x.whole = true → x.bytes.length = size := by
    intro x hx hw
    have : x.bytes ∈ wholeOf x.client pieces := List.mem_filterMap.mpr ⟨x, hx, if_pos ⟨rfl, hw⟩⟩
    rw [h4] at this
    obtain ⟨op, ho, e⟩ := List.mem_filterMap.mp this
    exact hlen (hin ho) e
  refine ⟨pieces, h1, fun p => ?_, fun x hx hw => ?_, hsz, ?_⟩
  · rw [h4, List.map_filterMap]
    refine filterMap_congr_mem fun op ho => ?_
    rcases h p op (hin ho) with ⟨bs, e, _, er⟩ | ⟨hl, er⟩
    · rw [e, er]; rfl
    · rw [leaves_added hl, er]; rfl
  · obtain ⟨op, ho, bs, k, n, e1, e2, e3, e4⟩ := h3 x hx hw
    exact ⟨op, ho, bs, k, n, e1, e2, by rw [← hlen ho e1]; exact e3, e4⟩
  · rintro a x z rfl hw
    have hx := hsz x (by simp) hw
    have ha := torn_mod (size := size) (pieces := a) fun y hy => hsz y (by simp [hy])
    generalize bytesAt fs l = old at *
    rw [h1, show old ++ ((a ++ x :: z).map (·.bytes)).flatten = (old ++ piecesText a) ++ x.bytes ++ piecesText z by simp [piecesText]]
    obtain ⟨p1, p2⟩ := slots_place hs (old ++ piecesText a) x.bytes (piecesText z) hx
    obtain ⟨m, hm⟩ := hd
    have hmod : (old ++ piecesText a).length % size = torn a % size := by
      rw [List.length_append, ← ha, hm, Nat.mul_add_mod]
    have hdm := Nat.div_add_mod (old.length + (piecesText a).length) size
    rw [hmod] at p1 p2
    rw [List.length_append] at p1 p2
    rw [List.length_append] at hmod
    rw [hmod] at hdm
    have hle : torn a % size ≤ (piecesText a).length := by rw [← ha]; exact Nat.mod_le ..
    have hcut : (old ++ piecesText a).drop (size * ((old.length + (piecesText a).length) / size)) =
        (piecesText a).drop ((piecesText a).length - torn a % size) := by
      have : size * ((old.length + (piecesText a).length) / size) = old.length + ((piecesText a).length - torn a % size) := by omega
      rw [this, List.drop_length_add_append]
    rw [hcut] at p1
    simp only [List.getElem?_map]
    refine ⟨fun h0 => ?_, fun h0 => ⟨?_, ?_⟩⟩
    · rw [p1, h0, Nat.sub_zero, Nat.sub_zero, List.drop_length, List.nil_append, List.take_of_length_le (by omega)]; rfl
    · rw [p1]; rfl
    · rw [p2 h0]; rfl

/-- **C146, exactly.** Several clients add records to the list of a board while the disk gets full and has room again at any moments, and no call is
under way. The list holds what it held, followed by pieces; for every client the whole ones are, in its order, the records whose adding was answered
with success, and every other piece is the beginning of a record. A record is read in its place if the parts before it make up whole records, and
otherwise its bytes are read in two records: the one in which the bytes before it end, and the next. -/
theorem C146_exact (db : DB) (c : Codec) (fs : FS) (b path : Bytes) (todo : Nat → List Call) (sched : List (Nat × Nat × Option Nat))
    (hp : getBoardArticlesDirectoryPath db.home b = .ok path) (hd : 128 ∣ (bytesAt fs (resolve db.cwd path)).length)
    (h : ∀ p, ∀ op ∈ todo p, (∃ r, op = .addRecord b r) ∨ LeavesAlone db (resolve db.cwd path) op)
    (hidle : ∀ p, (((fresh fs todo).runIn db c sched).1.clients p).now = none) :
    ∃ pieces : List Piece,
      bytesAt ((fresh fs todo).runIn db c sched).1.fs (resolve db.cwd path) = bytesAt fs (resolve db.cwd path) ++ piecesText pieces ∧
      (∀ p, (wholeOf p pieces).map (FileHeader.parse c) =
        (succeeded p none ((fresh fs todo).runIn db c sched).2).filterMap (recordAdded c b)) ∧
      (∀ x ∈ pieces, x.whole = false → ∃ r k n, Call.addRecord b r ∈ todo x.client ∧ (x.client, n, some k) ∈ sched ∧ k < 128 ∧
        x.bytes = (r.marshal c).take k) ∧
      ∀ a x z, pieces = a ++ x :: z → x.whole = true →
        (torn a % 128 = 0 →
          (articlesIn c (bytesAt ((fresh fs todo).runIn db c sched).1.fs (resolve db.cwd path)))[
              ((bytesAt fs (resolve db.cwd path)).length + (piecesText a).length) / 128]? = some (FileHeader.parse c x.bytes)) ∧
        (torn a % 128 ≠ 0 →
          (articlesIn c (bytesAt ((fresh fs todo).runIn db c sched).1.fs (resolve db.cwd path)))[
              ((bytesAt fs (resolve db.cwd path)).length + (piecesText a).length) / 128]? =
            some (FileHeader.parse c ((piecesText a).drop ((piecesText a).length - torn a % 128) ++ x.bytes.take (128 - torn a % 128))) ∧
          (articlesIn c (bytesAt ((fresh fs todo).runIn db c sched).1.fs (resolve db.cwd path)))[
              ((bytesAt fs (resolve db.cwd path)).length + (piecesText a).length) / 128 + 1]? =
            some (FileHeader.parse c (padTo 128 ((x.bytes.drop (128 - torn a % 128) ++ piecesText z).take 128)))) := by
  have hadd : ∀ r, addedTo db c (resolve db.cwd path) (.addRecord b r) = some (r.marshal c) := by
    intro r
    show ifAt _ _ _ _ = _
    rw [hp]
    exact if_pos rfl
  have hall : ∀ p, ∀ op ∈ todo p, (∃ bs, addedTo db c (resolve db.cwd path) op = some bs ∧ bs.length = 128 ∧ (recordAdded c b) op = some (FileHeader.parse c bs)) ∨
      (LeavesAlone db (resolve db.cwd path) op ∧ (recordAdded c b) op = none) := by
    intro p op ho
    rcases h p op ho with ⟨r, rfl⟩ | hl
    · exact .inl ⟨_, hadd r, r.marshal_length c, by simp [recordAdded, FileHeader.parse_marshal_exact]⟩
    · refine .inr ⟨hl, ?_⟩
      cases op with
      | addRecord b' r =>
        by_cases e : b' = b
        · subst e
          have := leaves_added (c := c) hl
          rw [hadd] at this
          cases this
        · simp [recordAdded, e]
      | _ => rfl
  obtain ⟨pieces, h1, h2, h3, _, h5⟩ := full_exact (sched := sched) 128 (by omega) (FileHeader.parse c) (recordAdded c b) hd hall hidle
  refine ⟨pieces, h1, h2, fun x hx hw => ?_, h5⟩
  obtain ⟨op, ho, bs, k, n, e1, e2, e3, e4⟩ := h3 x hx hw
  rcases h _ op ho with ⟨r, rfl⟩ | hl
  · rw [hadd] at e1
    exact ⟨r, k, n, ho, e2, e3, by rw [Option.some.inj e1]; exact e4⟩
  · rw [leaves_added hl] at e1; cases e1

/-- **C146, the list of boards, exactly.** -/
theorem C146_boards_exact (db : DB) (c : Codec) (fs : FS) (path : Bytes) (todo : Nat → List Call) (sched : List (Nat × Nat × Option Nat))
    (hp : getBoardPath db.home = .ok path) (hd : 256 ∣ (bytesAt fs (resolve db.cwd path)).length)
    (h : ∀ p, ∀ op ∈ todo p, (∃ r, op = .addBoard r) ∨ LeavesAlone db (resolve db.cwd path) op)
    (hidle : ∀ p, (((fresh fs todo).runIn db c sched).1.clients p).now = none) :
    ∃ pieces : List Piece,
      bytesAt ((fresh fs todo).runIn db c sched).1.fs (resolve db.cwd path) = bytesAt fs (resolve db.cwd path) ++ piecesText pieces ∧
      (∀ p, (wholeOf p pieces).map (BoardHeader.parse c) =
        (succeeded p none ((fresh fs todo).runIn db c sched).2).filterMap (boardAdded c)) ∧
      (∀ x ∈ pieces, x.whole = false → ∃ r k n, Call.addBoard r ∈ todo x.client ∧ (x.client, n, some k) ∈ sched ∧ k < 256 ∧
        x.bytes = (r.marshal c).take k) ∧
      ∀ a x z, pieces = a ++ x :: z → x.whole = true →
        (torn a % 256 = 0 →
          (boardsIn c (bytesAt ((fresh fs todo).runIn db c sched).1.fs (resolve db.cwd path)))[
              ((bytesAt fs (resolve db.cwd path)).length + (piecesText a).length) / 256]? = some (BoardHeader.parse c x.bytes)) ∧
        (torn a % 256 ≠ 0 →
          (boardsIn c (bytesAt ((fresh fs todo).runIn db c sched).1.fs (resolve db.cwd path)))[
              ((bytesAt fs (resolve db.cwd path)).length + (piecesText a).length) / 256]? =
            some (BoardHeader.parse c ((piecesText a).drop ((piecesText a).length - torn a % 256) ++ x.bytes.take (256 - torn a % 256))) ∧
          (boardsIn c (bytesAt ((fresh fs todo).runIn db c sched).1.fs (resolve db.cwd path)))[
              ((bytesAt fs (resolve db.cwd path)).length + (piecesText a).length) / 256 + 1]? =
            some (BoardHeader.parse c (padTo 256 ((x.bytes.drop (256 - torn a % 256) ++ piecesText z).take 256)))) := by
  have hadd : ∀ r, addedTo db c (resolve db.cwd path) (.addBoard r) = some (r.marshal c) := by
    intro r
    unfold addedTo
    rw [hp]
    exact if_pos rfl
  have hall : ∀ p, ∀ op ∈ todo p, (∃ bs, addedTo db c (resolve db.cwd path) op = some bs ∧ bs.length = 256 ∧ (boardAdded c) op = some (BoardHeader.parse c bs)) ∨
      (LeavesAlone db (resolve db.cwd path) op ∧ (boardAdded c) op = none) := by
    intro p op ho
    rcases h p op ho with ⟨r, rfl⟩ | hl
    · exact .inl ⟨_, hadd r, r.marshal_length c, by simp [boardAdded, BoardHeader.parse_marshal_exact]⟩
    · refine .inr ⟨hl, ?_⟩
      cases op with
      | addBoard r =>
        have := leaves_added (c := c) hl
        rw [hadd] at this
        cases this
      | _ => rfl
  obtain ⟨pieces, h1, h2, h3, _, h5⟩ := full_exact (sched := sched) 256 (by omega) (BoardHeader.parse c) (boardAdded c) hd hall hidle
  refine ⟨pieces, h1, h2, fun x hx hw => ?_, h5⟩
  obtain ⟨op, ho, bs, k, n, e1, e2, e3, e4⟩ := h3 x hx hw
  rcases h _ op ho with ⟨r, rfl⟩ | hl
  · rw [hadd] at e1
    exact ⟨r, k, n, ho, e2, e3, by rw [Option.some.inj e1]; exact e4⟩
  · rw [leaves_added hl] at e1; cases e1

/-- **C146, the list of boards.** As `C146_partial`. Missing from the full claim: a `write` that stores a part of a record. -/
theorem C146_boards_partial (db : DB) (c : Codec) (fs : FS) (path : Bytes) (todo : Nat → List Call) (sched : List (Nat × Nat × Option Nat))
    (hp : getBoardPath db.home = .ok path) (hd : 256 ∣ (bytesAt fs (resolve db.cwd path)).length)
    (h : ∀ p, ∀ op ∈ todo p, (∃ r, op = .addBoard r) ∨ LeavesAlone db (resolve db.cwd path) op)
    (hroom : ∀ p n k, (p, n, some k) ∈ sched → k = 0 ∨ 256 ≤ k)
    (hidle : ∀ p, (((fresh fs todo).runIn db c sched).1.clients p).now = none) :
    ∃ order : List (Nat × BoardHeader),
      boardsIn c (bytesAt ((fresh fs todo).runIn db c sched).1.fs (resolve db.cwd path)) = boardsIn c (bytesAt fs (resolve db.cwd path)) ++ order.map (·.2) ∧
      ∀ p, partOf p order = (succeeded p none ((fresh fs todo).runIn db c sched).2).filterMap (boardAdded c) := by
  have hadd : ∀ r, addedTo db c (resolve db.cwd path) (.addBoard r) = some (r.marshal c) := by
    intro r
    unfold addedTo
    rw [hp]
    exact if_pos rfl
  have hall : ∀ p, ∀ op ∈ todo p, (∃ bs, addedTo db c (resolve db.cwd path) op = some bs ∧ bs.length = 256 ∧ (boardAdded c) op = some (BoardHeader.parse c bs)) ∨
      (LeavesAlone db (resolve db.cwd path) op ∧ (boardAdded c) op = none) := by
    intro p op ho
    rcases h p op ho with ⟨r, rfl⟩ | hl
    · exact .inl ⟨_, hadd r, r.marshal_length c, by simp [boardAdded, BoardHeader.parse_marshal_exact]⟩
    · refine .inr ⟨hl, ?_⟩
      cases op with
      | addBoard r =>
        have := leaves_added (c := c) hl
        rw [hadd] at this
        cases this
      | _ => rfl
  obtain ⟨pieces, h1, h2, h3, h4, _⟩ := full_exact (sched := sched) 256 (by omega) (BoardHeader.parse c) (boardAdded c) hd hall hidle
  have h5 : ∀ x ∈ pieces, x.whole = false → x.bytes = [] := by
    intro x hx hw
    obtain ⟨op, ho, bs, k, n, e1, e2, e3, e4⟩ := h3 x hx hw
    rcases hroom _ _ _ e2 with rfl | hk
    · rw [e4, List.take_zero]
    · omega
  have hs : Sized 256 ((wholes pieces).map (·.2)) := by
    intro x hx
    obtain ⟨y, hy, rfl⟩ := List.mem_map.mp hx
    obtain ⟨z, hz, e⟩ := List.mem_filterMap.mp hy
    split at e
    · rename_i hw
      cases e
      exact h4 z hz hw
    · cases e
  refine ⟨(wholes pieces).map fun x => (x.1, BoardHeader.parse c x.2), ?_, fun p => ?_⟩
  · unfold boardsIn
    rw [h1, piecesText, flatten_wholes h5, slots_added (by omega) hd hs]
    simp
  · rw [partOf_map, partOf_wholes, h2]

/-! ## Examples -/

/-- In the run that refutes the claim the parts before the record of client 1 have one byte, so it is read in two records; with room for 64 bytes at each
of two writes of one client, the next record is read in its place. -/
def halves : Nat → List Call
  | 0 => [.addRecord (ascii "S") tornRecord, .addRecord (ascii "S") tornRecord]
  | 1 => [.addRecord (ascii "S") tornRecord]
  | _ => []

def halvesSched : List (Nat × Nat × Option Nat) :=
  [(0, 0, none), (0, 0, none), (0, 0, some 64), (0, 0, none), (0, 0, none), (0, 0, none), (0, 0, some 64), (0, 0, none),
    (1, 0, none), (1, 0, none), (1, 0, none), (1, 0, none)]

def halvesEnd : Site × List Event := (fresh sampleFS halves).runIn sampleDB asciiCodec halvesSched

example : (articlesIn asciiCodec (bytesAt halvesEnd.1.fs (resolve sampleDB.cwd (indexPath sampleDB.home (ascii "S"))))).length = 2 ∧
    ((articlesIn asciiCodec (bytesAt halvesEnd.1.fs (resolve sampleDB.cwd (indexPath sampleDB.home (ascii "S")))))[1]?).map (·.filename) =
      some (ascii "M.1.A.1") ∧ (succeeded 0 none halvesEnd.2).length = 0 ∧ (succeeded 1 none halvesEnd.2).length = 1 := by decide +kernel

/-- The hypotheses of `C146_exact` are met, by this run and by the one above. -/
example : (∀ p, ∀ op ∈ halves p, (∃ r, op = .addRecord (ascii "S") r) ∨
      LeavesAlone sampleDB (resolve sampleDB.cwd (indexPath sampleDB.home (ascii "S"))) op) ∧
    ∀ p, (((fresh sampleFS halves).runIn sampleDB asciiCodec halvesSched).1.clients p).now = none := by
  refine ⟨fun p op hop => ?_, fun p => ?_⟩
  · match p, hop with
    | 0, hop => simp only [halves, List.mem_cons, List.not_mem_nil, or_false, or_self] at hop; exact .inl ⟨_, hop⟩
    | 1, hop => exact .inl ⟨_, List.mem_singleton.mp hop⟩
    | _ + 2, hop => cases hop
  · match p with
    | 0 => exact Option.isNone_iff_eq_none.mp (by decide +kernel)
    | 1 => exact Option.isNone_iff_eq_none.mp (by decide +kernel)
    | q + 2 => rw [runIn_other halvesSched (by simp [halvesSched])]; rfl

/-- Two clients add boards: room for nothing, for a whole record, for a half of one. -/
def twoBoards : Nat → List Call
  | 0 => [.addBoard shelfBoard, .addBoard shelfBoard]
  | 1 => [.addBoard shelfBoard]
  | _ => []

def boardSched (k : Nat) : List (Nat × Nat × Option Nat) :=
  [(0, 0, none), (0, 0, none), (0, 0, some 0), (0, 0, none), (0, 0, none), (0, 0, none), (0, 0, some k), (0, 0, none),
    (1, 0, none), (1, 0, none), (1, 0, none), (1, 0, none)]

def boardsEnd (k : Nat) : Site × List Event := (fresh sampleFS twoBoards).runIn sampleDB asciiCodec (boardSched k)

/-- With room for a whole record both boards that were answered with success are read; after half a record the board of client 1 is read in two records,
of which the second holds the second half. -/
example : (boardsIn asciiCodec (bytesAt (boardsEnd 256).1.fs (resolve sampleDB.cwd (ascii "/bbs/.BRD")))).map (·.brdName) = [ascii "S", ascii "S"] ∧
    (boardsIn asciiCodec (bytesAt (boardsEnd 128).1.fs (resolve sampleDB.cwd (ascii "/bbs/.BRD")))).map (·.brdName) = [ascii "S", []] ∧
    ((succeeded 0 none (boardsEnd 256).2).length, (succeeded 1 none (boardsEnd 256).2).length) = (1, 1) ∧
    ((succeeded 0 none (boardsEnd 128).2).length, (succeeded 1 none (boardsEnd 128).2).length) = (0, 1) := by decide +kernel

/-- The hypotheses of `C146_boards_exact` and `C146_boards_partial` are met. -/
example : (∀ p n k, (p, n, some k) ∈ boardSched 256 → k = 0 ∨ 256 ≤ k) ∧
    getBoardPath sampleDB.home = .ok (ascii "/bbs/.BRD") ∧
    (∀ p, ∀ op ∈ twoBoards p, (∃ r, op = .addBoard r) ∨ LeavesAlone sampleDB (resolve sampleDB.cwd (ascii "/bbs/.BRD")) op) ∧
    ∀ p, (((fresh sampleFS twoBoards).runIn sampleDB asciiCodec (boardSched 256)).1.clients p).now = none := by
  refine ⟨fun p n k h => ?_, by decide +kernel, fun p op hop => ?_, fun p => ?_⟩
  · simp only [boardSched, List.mem_cons, Prod.mk.injEq, Option.some.injEq, reduceCtorEq, and_false, List.not_mem_nil, or_false, false_or] at h
    rcases h with ⟨_, _, rfl⟩ | ⟨_, _, rfl⟩
    · exact .inl rfl
    · exact .inr (Nat.le_refl _)
  · match p, hop with
    | 0, hop => simp only [twoBoards, List.mem_cons, List.not_mem_nil, or_false, or_self] at hop; exact .inl ⟨_, hop⟩
    | 1, hop => exact .inl ⟨_, List.mem_singleton.mp hop⟩
    | _ + 2, hop => cases hop
  · match p with
    | 0 => exact Option.isNone_iff_eq_none.mp (by decide +kernel)
    | 1 => exact Option.isNone_iff_eq_none.mp (by decide +kernel)
    | q + 2 => rw [runIn_other (boardSched 256) (by simp [boardSched])]; rfl

end Verif
