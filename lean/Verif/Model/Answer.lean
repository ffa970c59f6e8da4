import Verif.Go.Calendar
import Verif.Go.Json
import Verif.Model.Server
/-!
# What the service writes: status code and body — /repo/serverlet

Bodies are `json.MarshalIndent(v, "", "  ")` of a map or of records; a map is written in the order of its keys, a record field by
field, exported fields only. If marshalling fails, the error is dropped and nothing is written. `zone` is `time.Local`: every
time of a loaded record comes from `time.Unix`. Answers of the router itself (redirects, 404 pages) have no JSON body.
-/

namespace Verif

/-- Year of an instant in the zone, possibly negative (`Time.Year`). -/
def yearOf (sec : Int) : Int := ((yearDay (absSeconds sec / 86400)).1 : Int) - 292277022399

/-- `Time.MarshalJSON`: an error unless the year has four digits; the fraction of a second is absent. -/
def timeJson (zone : Int → Int) (sec : Int) : Option Json :=
  if yearOf (sec + zone sec) < 0 ∨ 10000 ≤ yearOf (sec + zone sec) then none else some (.str (formatRFC3339 zone sec))

/-- A slice of numbers: a nil slice is `null`. An empty slice that is not nil does not occur. -/
def numsJson (l : List Int32) : Json := if l = [] then .null else .arr (l.map fun x => .num x.toInt)

/-- The exported fields of `BoardHeader` — /repo/pttbbs/board.go:36-67 (`title` and `bm` are not exported) — as marshalled by
/repo/serverlet/route_boards.go:33. -/
def BoardHeader.json (zone : Int → Int) (b : BoardHeader) : Option Json := do
  let bUpdate ← timeJson zone b.bUpdate
  let vTime ← timeJson zone b.vTime
  let permReload ← timeJson zone b.permReload
  let endGamble ← timeJson zone b.endGamble
  let srExpire ← timeJson zone b.srExpire
  some (.obj
    [(ascii "BrdName", .str b.brdName),
     (ascii "Brdattr", .num b.brdattr.toNat),
     (ascii "ChessCountry", .str b.chessCountry),
     (ascii "VoteLimitPosts", .num b.voteLimitPosts.toNat),
     (ascii "VoteLimitLogins", .num b.voteLimitLogins.toNat),
     (ascii "BUpdate", bUpdate),
     (ascii "PostLimitPosts", .num b.postLimitPosts.toNat),
     (ascii "PostLimitLogins", .num b.postLimitLogins.toNat),
     (ascii "BVote", .num b.bVote.toNat),
     (ascii "VTime", vTime),
     (ascii "Level", .num b.level.toNat),
     (ascii "PermReload", permReload),
     (ascii "Gid", .num b.gid.toInt),
     (ascii "Next", numsJson b.next),
     (ascii "FirstChild", numsJson b.firstChild),
     (ascii "Parent", .num b.parent.toInt),
     (ascii "ChildCount", .num b.childCount.toInt),
     (ascii "Nuser", .num b.nuser.toInt),
     (ascii "PostExpire", .num b.postExpire.toInt),
     (ascii "EndGamble", endGamble),
     (ascii "PostType", .str b.postType),
     (ascii "PostTypeF", .str b.postTypeF),
     (ascii "FastRecommendPause", .num b.fastRecommendPause.toNat),
     (ascii "VoteLimitBadPost", .num b.voteLimitBadPost.toNat),
     (ascii "PostLimitBadPost", .num b.postLimitBadPost.toNat),
     (ascii "SRexpire", srExpire)])

/-- `dataMap` — /repo/serverlet/route_users.go:69-83, in the order of the keys. -/
def UserData.json (zone : Int → Int) (u : UserData) : Json :=
  .obj
    [(ascii "chess_status", .obj []),
     (ascii "last_login_ip", .str u.lastLoginIP),
     (ascii "last_login_ipv4", .str u.lastLoginIP),
     (ascii "last_login_time", .str (formatRFC3339 zone u.lastLoginTime)),
     (ascii "money", .str u.money),
     (ascii "nickname", .str u.nickname),
     (ascii "number_of_login_days", .str u.numberOfLoginDays),
     (ascii "number_of_posts", .str u.numberOfPosts),
     (ascii "plan", .obj []),
     (ascii "realname", .str u.realname),
     (ascii "user_id", .str u.userID)]

/-- All or nothing. -/
def allJson : List (Option Json) → Option (List Json)
  | [] => some []
  | x :: l => do
    let v ← x
    let l' ← allJson l
    some (v :: l')

/-- The value a handler marshals; `none` if it marshals nothing or marshalling fails. -/
def Response.value (zone : Int → Int) : Response → Option Json
  | .grantError e => some (.obj [(ascii "error", .str (ascii "grant_error")), (ascii "error_description", .str (ascii e))])
      -- /repo/serverlet/route_token.go:31-36,47-52
  | .accessToken t => some (.obj [(ascii "access_token", .str t), (ascii "token_type", .str (ascii "bearer"))])
      -- /repo/serverlet/route_token.go:58-63
  | .boards l => do some (.obj [(ascii "data", .arr (← allJson (l.map (BoardHeader.json zone))))])
      -- /repo/serverlet/route_boards.go:23-34
  | .userError id => some (.obj [(ascii "error", .str (ascii "find_userrec_error")),
      (ascii "error_description", .str (ascii "get userrec for " ++ id ++ ascii " failed"))])
      -- /repo/serverlet/route_users.go:57-63
  | .userInfo u => some (.obj [(ascii "data", u.json zone)])
      -- /repo/serverlet/route_users.go:85-91
  | _ => none

/-- The body a handler writes. -/
def Response.body (zone : Int → Int) (r : Response) : Bytes :=
  match r.value zone with
  | some v => v.render 0
  | none => []

/-- The status code: 200 unless the handler says otherwise (`WriteHeader`). The first three are answers of the router
(net/http). -/
def Response.status : Response → Nat
  | .badRequest => 400
  | .redirect _ => 301
  | .muxNotFound => 404
  | .notImplemented => 501      -- /repo/serverlet/route_classes.go:21, route_users.go:94
  | .notFound => 404            -- /repo/serverlet/route_users.go:36
  | .unauthorized => 401        -- /repo/serverlet/route_users.go:49
  | .userError _ => 500         -- /repo/serverlet/route_users.go:56
  | .empty => 200
  | .grantError _ => 200
  | .accessToken _ => 200
  | .boards _ => 200
  | .userInfo _ => 200

end Verif
