import Verif.Model.RecordFile
import Verif.Spec.Records
/-!
# Specification of in-place removal and of concurrent appends
-/

namespace Verif.Spec

/-- The bytes appended by other processes during a run. -/
def appendedBy : List RmAct → Bytes
  | [] => []
  | .append bs :: as => bs ++ appendedBy as
  | .read _ :: as => appendedBy as
  | .put :: as => appendedBy as
  | .eof :: as => appendedBy as
  | .trunc :: as => appendedBy as

/-- The run has no system call of another process. -/
def Alone (acts : List RmAct) : Prop := ∀ a ∈ acts, ∀ bs, a ≠ .append bs

/-- All the system calls are appends of other processes. -/
def OnlyAppends (acts : List RmAct) : Prop := ∀ a ∈ acts, ∃ bs, a = .append bs

end Verif.Spec
