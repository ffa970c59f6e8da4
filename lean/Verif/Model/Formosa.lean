import Verif.Go.Slice
import Verif.Model.RecordFile
/-!
# The Formosa article index — /repo/formosabbs/file.go
-/

namespace Verif

/-- The fields of `FileHeader` that are ever set — /repo/formosabbs/file.go:24-41. -/
structure FormosaHeader where
  filename : Bytes
  modified : Int
  owner : Bytes
  title : Bytes
  postno : Int32
  deriving DecidableEq, Repr

/-- The fields read from a buffer long enough — /repo/formosabbs/file.go:73-104, positions 14-22. -/
def FormosaHeader.parse (c : Codec) (data : Bytes) : FormosaHeader :=
  { filename := trimNul (slice data 0 44)
    modified := timeOfU32 (rd32 (slice data 152 156))
    owner := trimNul (slice data 80 152)
    title := c.dec (trimNul (slice data 160 227))
    postno := (rd32 (slice data 72 76)).toInt32 }

/-- `NewFomosaBBSFileHeaderWithByte` — /repo/formosabbs/file.go:73-104, with every bounds check: a slice expression is checked against the
capacity, an index against the length. -/
def FormosaHeader.decode (c : Codec) (s : GSlice) : Res FormosaHeader := do
  return {
    filename := trimNul (← s.sub 0 44)
    modified := timeOfU32 (rd32 (← s.sub 152 156))
    owner := trimNul (← s.sub 80 152)
    title := c.dec (trimNul (← s.sub 160 227))
    postno := (rd32 (← s.sub 72 76)).toInt32 }

/-- `NewFomosaBBSFileHeaderWithByte` on a buffer made by `make` (capacity = length). -/
def FormosaHeader.unmarshal (c : Codec) (data : Bytes) : Res FormosaHeader := FormosaHeader.decode c (GSlice.full data)

/-- `OpenFormosaBBSFileHeaderFile` — /repo/formosabbs/file.go:43-71. -/
def openFormosaFile (c : Codec) (f : Option Bytes) : Res (List FormosaHeader) := readFile 248 (FormosaHeader.unmarshal c) f

end Verif
