import Verif.Props.Stays
import Verif.Props.PowerLoss
/-!
# C168: the readers of one list agree on its order
-/

namespace Verif
open Spec

/-- Of two listings at two moments of a history, the later one begins with what the earlier one showed, but perhaps for its last record. -/
theorem C168_moments (db : DB) (c : Codec) (fs : FS) (b : Bytes) (ops : List Call) (hops : ∀ o ∈ ops, CallKeeps o) (i j : Nat) (hij : i ≤ j)
    (rs rs' : List FileHeader) (h : ((Call.listArticles b).exec db c (Call.execAll db c fs (ops.take i)).1).2 = .ok (.articles rs))
    (h' : ((Call.listArticles b).exec db c (Call.execAll db c fs (ops.take j)).1).2 = .ok (.articles rs')) : rs.dropLast <+: rs' := by
  have e : ops.take j = ops.take i ++ (ops.take j).drop i := by
    have := List.take_append_drop i (ops.take j)
    rwa [List.take_take, Nat.min_eq_left hij, eq_comm] at this
  rw [e, execAll_append] at h'
  rcases C168_later db c _ b rs ((ops.take j).drop i) h (fun o ho => hops o (List.mem_of_mem_take (List.mem_of_mem_drop ho))) with ⟨r, h1, h2⟩ | ⟨-, h1⟩
  · rw [h1] at h'
    injection h' with h'
    injection h' with h'
    exact h' ▸ h2
  · rw [h1] at h'
    cases h'

/-- What two readers saw is in one order: one list goes on where the other ends, but perhaps for the last record of the shorter one. -/
theorem C168_readers_agree (db : DB) (c : Codec) (fs : FS) (b : Bytes) (ops : List Call) (hops : ∀ o ∈ ops, CallKeeps o) (i j : Nat)
    (rs rs' : List FileHeader) (h : ((Call.listArticles b).exec db c (Call.execAll db c fs (ops.take i)).1).2 = .ok (.articles rs))
    (h' : ((Call.listArticles b).exec db c (Call.execAll db c fs (ops.take j)).1).2 = .ok (.articles rs')) :
    rs.dropLast <+: rs' ∨ rs'.dropLast <+: rs := by
  rcases Nat.le_total i j with hij | hij
  · exact .inl (C168_moments db c fs b ops hops i j hij rs rs' h h')
  · exact .inr (C168_moments db c fs b ops hops j i hij rs' rs h' h)

/-- Non-vacuity: a list with two records, the second of which is not whole. -/
def Spec.twoRecords : FS := sampleFS.set [ascii "bbs", ascii "boards", ascii "S", ascii "S", ascii ".DIR"] (.file (77 :: zeros 128))

theorem twoRecords_read : sampleDB.readArticleRecords asciiCodec twoRecords (ascii "S") =
    .ok [FileHeader.parse asciiCodec (77 :: zeros 127), FileHeader.parse asciiCodec (zeros 128)] := by decide +kernel

example (rs' : List FileHeader) (h' : ((Call.listArticles (ascii "S")).exec sampleDB asciiCodec
      (Call.execAll sampleDB asciiCodec twoRecords (otherCalls.take 3)).1).2 = .ok (.articles rs')) :
    [FileHeader.parse asciiCodec (77 :: zeros 127)] <+: rs' :=
  C168_moments sampleDB asciiCodec twoRecords (ascii "S") otherCalls otherCalls_keep 0 3 (by decide)
    [FileHeader.parse asciiCodec (77 :: zeros 127), FileHeader.parse asciiCodec (zeros 128)] _
    (by simp only [List.take_zero, Call.execAll, Call.exec, reads, twoRecords_read, Res.ok_bind]) h'

theorem readBoards_file {db : DB} {c : Codec} {fs : FS} {bs : List BoardHeader} (h : db.readBoardRecords c fs = .ok bs) :
    ∃ p d, getBoardPath db.home = .ok p ∧ fs.readFile db.cwd p = .ok d := by
  obtain ⟨p, hp, h⟩ := Res.bind_eq_ok.mp h
  obtain ⟨l, hl, h⟩ := Res.bind_eq_ok.mp h
  refine ⟨p, ?_⟩
  cases e : fs.get l with
  | none => rw [e] at h; cases h
  | some x =>
    cases x with
    | dir => rw [e] at h; cases h
    | file d => exact ⟨d, hp, by simp only [FS.readFile_of hl, e]⟩

/-- **C168, the list of boards.** Once it could be read it can be read at every later moment, and begins with what was shown, but perhaps for the last
record. -/
theorem C168_board_moments (db : DB) (c : Codec) (fs : FS) (ops : List Call) (hops : ∀ o ∈ ops, CallKeeps o) (i j : Nat) (hij : i ≤ j)
    (bs : List BoardHeader) (h : (Call.readBoards.exec db c (Call.execAll db c fs (ops.take i)).1).2 = .ok (.boards bs)) :
    ∃ bs', (Call.readBoards.exec db c (Call.execAll db c fs (ops.take j)).1).2 = .ok (.boards bs') ∧ bs.dropLast <+: bs' := by
  have e : ops.take j = ops.take i ++ (ops.take j).drop i := by
    have := List.take_append_drop i (ops.take j)
    rwa [List.take_take, Nat.min_eq_left hij, eq_comm] at this
  obtain ⟨x, hx, hx'⟩ := reads_ok h
  obtain ⟨p, d, hp, hd⟩ := readBoards_file hx
  obtain ⟨a', h1, h2⟩ := C168_lists db c _ .readBoards _ ((ops.take j).drop i) p d 256 (by rw [listRead, hp]) hd h
    (fun o ho => hops o (List.mem_of_mem_take (List.mem_of_mem_drop ho)))
  rw [e, execAll_append]
  cases a' with
  | boards l => exact ⟨l, h1, h2⟩
  | _ => exact h2.elim

/-- Non-vacuity: a list of boards whose second record is not whole. -/
def Spec.twoBoards : FS := sampleFS.set [ascii "bbs", ascii ".BRD"] (.file (65 :: zeros 256))

theorem twoBoards_read : sampleDB.readBoardRecords asciiCodec twoBoards =
    .ok [BoardHeader.parse asciiCodec (65 :: zeros 255), BoardHeader.parse asciiCodec (zeros 256)] := by decide +kernel

example : ∃ bs', (Call.readBoards.exec sampleDB asciiCodec (Call.execAll sampleDB asciiCodec twoBoards (otherCalls.take 2)).1).2 = .ok (.boards bs') ∧
    [BoardHeader.parse asciiCodec (65 :: zeros 255)] <+: bs' :=
  C168_board_moments sampleDB asciiCodec twoBoards otherCalls otherCalls_keep 0 2 (by decide)
    [BoardHeader.parse asciiCodec (65 :: zeros 255), BoardHeader.parse asciiCodec (zeros 256)]
    (by simp only [List.take_zero, Call.execAll, Call.exec, reads, twoBoards_read, Res.ok_bind])

end Verif
