import Verif.Go.Path
/-!
# The command-line tool's options — /repo/cmd/bbstool/main.go
-/

namespace Verif

/-- A Go map from strings to strings. -/
abbrev StrMap := Bytes → Option Bytes

/-- `m[k] = v`. -/
def StrMap.insert (m : StrMap) (k v : Bytes) : StrMap := fun x => if x = k then some v else m x

/-- The loop of `parseArgsToMap` — /repo/cmd/bbstool/main.go:104-121. -/
def parseArgsLoop (args : List Bytes) (index : Nat) (m : StrMap) : StrMap :=
  if h : index ≥ args.length then m
  else
    let a := args[index]
    if (ascii "--").isPrefixOf a then
      if h' : index + 1 ≥ args.length then m
      else parseArgsLoop args (index + 2) (m.insert (a.drop 2) args[index + 1])
    else parseArgsLoop args (index + 1) m
termination_by args.length - index

/-- `parseArgsToMap` — /repo/cmd/bbstool/main.go:101-123. -/
def parseArgsToMap (args : List Bytes) : StrMap := parseArgsLoop args 1 (fun _ => none)

end Verif
