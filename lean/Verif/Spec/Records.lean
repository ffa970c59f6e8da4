import Verif.Model.FileHeader
import Verif.Model.Board
/-!
# Specification of record files: a file is a sequence of fixed-size slots
-/

namespace Verif.Spec

/-- All records have the given size. -/
def Sized (size : Nat) (rs : List Bytes) : Prop := ∀ r ∈ rs, r.length = size

/-- Slot `k` of a file (the bytes of record number `k`; a short last record is completed with zeros). -/
def slot (size : Nat) (d : Bytes) (k : Nat) : Bytes := padTo size (slice d (size * k) (size * k + size))

/-- All slots of a file, the last one possibly incomplete. -/
def slots (size : Nat) (d : Bytes) : List Bytes := (List.range ((d.length + size - 1) / size)).map (slot size d)

/-- What a saved article record contains: the fields that `MarshalToByte` does not write are zero (see C03). -/
def persisted (f : FileHeader) : FileHeader :=
  { f with money := 0, annoUID := 0, voteLimits := ⟨0, 0, 0, 0⟩, filemode := 0 }

end Verif.Spec
