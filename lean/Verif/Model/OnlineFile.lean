import Verif.Go.File
import Verif.Model.UserInfo
/-!
# Model of `OpenUserInfoCache`, /repo/pttbbs/userinfo.go:139-166
-/

namespace Verif

/-- The read loop — /repo/pttbbs/userinfo.go:149-163. Each round allocates a zero buffer of 3484 bytes; unlike the other readers it gives
up on an error that is not the end of the file. -/
def onlineLoop (c : Codec) (src : Nat → ReadRes) : Nat → Nat → Res (List UserInfo)
  | 0, _ => .diverge
  | fuel + 1, k =>
    match src k with
    | .eof => .ok []
    | .fail => .err "read error"
    | .data bs => do
      let r ← UserInfo.unmarshal c (padTo 3484 bs)
      let rest ← onlineLoop c src fuel (k + 1)
      .ok (r :: rest)

/-- `OpenUserInfoCache` on a regular file (`none`: it does not exist) — /repo/pttbbs/userinfo.go:140-166. -/
def openUserInfoCache (c : Codec) : Option Bytes → Res (List UserInfo)
  | none => .err "no such file or directory"
  | some d => onlineLoop c (fileSrc 3484 d) (d.length + 1) 0

end Verif
