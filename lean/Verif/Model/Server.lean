import Verif.Go.Fmt
import Verif.Model.Crypt
import Verif.Model.Settings
/-!
# The HTTP service — /repo/serverlet

A request is what the handlers look at: method, decoded URL path, `Authorization` header, and the two form values. The
answer is the value that is then written as JSON, or a bare status code; how it is written is in `Model/Answer`. The text
of a token is in `Model/Token` (`sign` is an argument here). `ServeMux` is modelled from the Go 1.14 standard library (go.mod line 3).
-/

namespace Verif

structure Request where
  method : Bytes
  path : Bytes
  auth : Bytes
  username : Bytes
  password : Bytes
  deriving DecidableEq, Repr

/-- The globals — /repo/serverlet/main.go:14-15. -/
structure ServerState where
  userRecs : List Userec
  boardHeader : List BoardHeader
  deriving DecidableEq, Repr

/-- `dataMap` — /repo/serverlet/route_users.go:69-83 (`last_login_ipv4` and `last_login_ip` hold the same value; the two empty
maps are left out). -/
structure UserData where
  userID : Bytes
  nickname : Bytes
  realname : Bytes
  numberOfLoginDays : Bytes
  numberOfPosts : Bytes
  money : Bytes
  lastLoginTime : Int
  lastLoginIP : Bytes
  deriving DecidableEq, Repr

inductive Response where
  | badRequest
  | redirect (path : Bytes)
  | muxNotFound
  | empty
  | grantError (description : String)
  | accessToken (token : Bytes)
  | boards (data : List BoardHeader)
  | notImplemented
  | notFound
  | unauthorized
  | userError (userID : Bytes)
  | userInfo (data : UserData)
  deriving DecidableEq, Repr

/-! ## Tokens and permissions -/

/-- `jwt.StandardClaims` as filled in — /repo/serverlet/route_token.go:94-98. -/
structure Claims where
  expiresAt : Int
  subject : Bytes
  deriving DecidableEq, Repr

/-- `newAccessTokenWithUsername` — /repo/serverlet/route_token.go:93-127. -/
def newAccessToken (sign : Claims → Bytes) (username : Bytes) : Bytes := sign ⟨30 * 60, username⟩

/-- `getTokenFromRequest` — /repo/serverlet/route_token.go:83-91. -/
def getTokenFromRequest (r : Request) : Bytes :=
  match splitByte 32 r.auth with
  | _ :: t :: _ => t
  | _ => []

/-- `permission` — /repo/serverlet/permissions.go:3-8. -/
inductive Permission where
  | readUserInformation
  | readFavorite
  deriving DecidableEq, Repr

/-- `checkTokenPermission` — /repo/serverlet/permissions.go:10-12. -/
def checkTokenPermission (_token : Bytes) (_permissionID : List Permission) (_userInfo : List (Bytes × Bytes)) : Res Unit := .ok ()

/-- What a log line of `postToken` and `verifyPassword` contains — /repo/serverlet/route_token.go:41,79. Printing a pointer to a
struct prints all its fields. -/
inductive LogLine where
  | foundUser (u : Userec)
  | password (hash : Bytes)
  deriving DecidableEq, Repr

/-! ## Handlers -/

/-- `postToken` — /repo/serverlet/route_token.go:22-67. The two log lines are not part of the answer. -/
def postToken (sign : Claims → Bytes) (st : ServerState) (r : Request) : Res Response :=
  match findUserecByID st.userRecs r.username with
  | .err e => .ok (.grantError e)
  | .panic => .panic
  | .diverge => .diverge
  | .ok u =>
    match u.verifyPassword r.password with
    | .err e => .ok (.grantError e)
    | .panic => .panic
    | .diverge => .diverge
    | .ok () => .ok (.accessToken (newAccessToken sign r.username))

/-- The log lines of `postToken` — /repo/serverlet/route_token.go:41,79: none if the user is not found. -/
def postTokenLog (st : ServerState) (r : Request) : List LogLine :=
  match findUserecByID st.userRecs r.username with
  | .ok u => [.foundUser u, .password u.password]
  | _ => []

/-- `routeToken` — /repo/serverlet/route_token.go:14-20. -/
def routeToken (sign : Claims → Bytes) (st : ServerState) (r : Request) : Res Response :=
  if r.method = ascii "POST" then postToken sign st r else .ok .empty

/-- `routeBoards`, `getBoards` — /repo/serverlet/route_boards.go:8-36. -/
def routeBoards (st : ServerState) (r : Request) : Res Response :=
  if r.method = ascii "GET" then .ok (.boards st.boardHeader) else .ok .empty

/-- `routeClasses`, `getClasses` — /repo/serverlet/route_classes.go:11-23. -/
def routeClasses (r : Request) : Res Response :=
  if r.method = ascii "GET" then .ok .notImplemented else .ok .empty

/-- `parseUserPath` — /repo/serverlet/route_users.go:97-107: indices 3 and 4 panic when there are fewer segments. -/
def parseUserPath (path : Bytes) : Res (Bytes × Bytes) :=
  match splitByte slash path with
  | [_, _, _, u] => .ok (u, [])
  | _ :: _ :: _ :: u :: i :: _ => .ok (u, i)
  | _ => .panic

/-- The answer for a record — /repo/serverlet/route_users.go:69-83. -/
def Userec.userData (u : Userec) : UserData :=
  { userID := u.userID
    nickname := u.nickname
    realname := u.realName
    numberOfLoginDays := dec u.numLoginDays.toNat
    numberOfPosts := dec u.numPosts.toNat
    money := decInt u.money.toInt
    lastLoginTime := u.lastLogin
    lastLoginIP := u.lastHost }

/-- `getUserInformation` — /repo/serverlet/route_users.go:39-92. -/
def getUserInformation (st : ServerState) (r : Request) (userID : Bytes) : Res Response :=
  match checkTokenPermission (getTokenFromRequest r) [.readUserInformation] [(ascii "user_id", userID)] with
  | .err _ => .ok .unauthorized
  | .panic => .panic
  | .diverge => .diverge
  | .ok () =>
    match findUserecByID st.userRecs userID with
    | .err _ => .ok (.userError userID)
    | .panic => .panic
    | .diverge => .diverge
    | .ok u => .ok (.userInfo u.userData)

/-- `getUsers` — /repo/serverlet/route_users.go:22-37; `getUserFavorites` lines 93-95. -/
def getUsers (st : ServerState) (r : Request) : Res Response := do
  let (userID, item) ← parseUserPath r.path
  if item = ascii "information" then getUserInformation st r userID
  else if item = ascii "favorites" then .ok .notImplemented
  else .ok .notFound

/-- `routeUsers` — /repo/serverlet/route_users.go:14-20. -/
def routeUsers (st : ServerState) (r : Request) : Res Response :=
  if r.method = ascii "GET" then getUsers st r else .ok .empty

/-! ## The router -/

/-- `path.Clean` (Go standard library) of a path beginning with a slash. -/
def cleanRooted (p : Bytes) : Bytes := slash :: List.intercalate [slash] (resolve [] p)

/-- `cleanPath` (net/http): clean, but keep a final slash. -/
def cleanPath (p : Bytes) : Bytes :=
  if p = [] then [slash]
  else
    let p := if p.head? = some slash then p else slash :: p
    let np := cleanRooted p
    if p.getLast? = some slash ∧ np ≠ [slash] then np ++ [slash] else np

/-- The handlers registered — /repo/serverlet/main.go:31-35. -/
inductive Route where
  | token
  | boards
  | classes
  | users
  deriving DecidableEq, Repr

/-- `ServeMux.match` (net/http) with the patterns of /repo/serverlet/main.go:32-35: an exact match, else the longest pattern ending
in a slash that is a prefix (at most one of the two can be). -/
def muxMatch (path : Bytes) : Option Route :=
  if path = ascii "/v1/token" then some .token
  else if path = ascii "/v1/boards" then some .boards
  else if (ascii "/v1/classes/").isPrefixOf path then some .classes
  else if (ascii "/v1/users/").isPrefixOf path then some .users
  else none

/-- `redirectToPathSlash` (net/http): a subtree pattern without its final slash. -/
def muxWantsSlash (path : Bytes) : Bool := path = ascii "/v1/classes" ∨ path = ascii "/v1/users"

/-- Call a handler. -/
def runRoute (sign : Claims → Bytes) (st : ServerState) (r : Request) : Option Route → Res Response
  | none => .ok .muxNotFound
  | some .token => routeToken sign st r
  | some .boards => routeBoards st r
  | some .classes => routeClasses r
  | some .users => routeUsers st r

/-- `ServeMux.ServeHTTP` and `ServeMux.Handler` (net/http). The path `*` stands for the request URI `*`. -/
def serve (sign : Claims → Bytes) (st : ServerState) (r : Request) : Res Response :=
  if r.path = ascii "*" then .ok .badRequest
  else if r.method = ascii "CONNECT" then
    if muxWantsSlash r.path then .ok (.redirect (r.path ++ [slash])) else runRoute sign st r (muxMatch r.path)
  else
    let path := cleanPath r.path
    if muxWantsSlash path then .ok (.redirect (path ++ [slash]))
    else if path ≠ r.path then .ok (.redirect path)
    else runRoute sign st r (muxMatch path)

end Verif
