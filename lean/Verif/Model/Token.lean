import Verif.Go.Json
import Verif.Model.Server
/-!
# The text of a token

`token.SignedString` of github.com/golang-jwt/jwt 3.2.2 (go.mod line 6) as `newAccessTokenWithUsername` calls it, with `json.Marshal` and
`base64.RawURLEncoding` of the Go standard library. The elliptic-curve signature is an argument: the numbers `r` and `s` for a text, below
2^256, or nothing if signing fails. The key in /repo/serverlet/route_token.go:102-106 is taken to be read without an error.
-/

namespace Verif

/-! ## `encoding/json` -/

mutual
/-- `json.Marshal`: no white space. -/
def Json.compact : Json → Bytes
  | .null => ascii "null"
  | .num n => decInt n
  | .str s => quote s
  | .arr [] => ascii "[]"
  | .arr (v :: l) => 91 :: v.compact ++ compactItems l ++ [93]
  | .obj [] => ascii "{}"
  | .obj ((k, v) :: l) => 123 :: quote k ++ 58 :: v.compact ++ compactFields l ++ [125]

def compactItems : List Json → Bytes
  | [] => []
  | v :: l => 44 :: v.compact ++ compactItems l

def compactFields : List (Bytes × Json) → Bytes
  | [] => []
  | (k, v) :: l => 44 :: quote k ++ 58 :: v.compact ++ compactFields l
end

/-! ## `encoding/base64` -/

/-- `encodeURL[n]`. -/
def b64Digit (n : Nat) : UInt8 :=
  if n < 26 then UInt8.ofNat (65 + n) else if n < 52 then UInt8.ofNat (71 + n) else if n < 62 then UInt8.ofNat (n - 4)
  else if n = 62 then 45 else 95

/-- `Encoding.Encode` without padding: three bytes make four digits, the rest of one or two makes two or three. -/
def b64Encode : Bytes → Bytes
  | a :: b :: c :: r =>
    let val := a.toNat * 65536 + b.toNat * 256 + c.toNat
    b64Digit (val / 262144 % 64) :: b64Digit (val / 4096 % 64) :: b64Digit (val / 64 % 64) :: b64Digit (val % 64) :: b64Encode r
  | [a, b] =>
    let val := a.toNat * 65536 + b.toNat * 256
    [b64Digit (val / 262144 % 64), b64Digit (val / 4096 % 64), b64Digit (val / 64 % 64)]
  | [a] =>
    let val := a.toNat * 65536
    [b64Digit (val / 262144 % 64), b64Digit (val / 4096 % 64)]
  | [] => []

/-! ## `jwt` -/

/-- `Header` of `NewWithClaims` with `SigningMethodES256`: a map, so in the order of the keys. -/
def jwtHeader : Json := .obj [(ascii "alg", .str (ascii "ES256")), (ascii "typ", .str (ascii "JWT"))]

/-- `jwt.StandardClaims` in the order of its fields; each is left out if it is empty or zero, and the others are never set —
/repo/serverlet/route_token.go:94-98. -/
def Claims.json (c : Claims) : Json :=
  .obj ((if c.expiresAt = 0 then [] else [(ascii "exp", .num c.expiresAt)]) ++
    (if c.subject = [] then [] else [(ascii "sub", .str c.subject)]))

/-- `Token.SigningString`. -/
def Claims.signingString (c : Claims) : Bytes := b64Encode jwtHeader.compact ++ 46 :: b64Encode c.json.compact

/-- The last `k` bytes of a number, the highest first: `copy(padded[k-len(b):], b)` with `b` of `big.Int.Bytes`. -/
def bigEndian : Nat → Nat → Bytes
  | 0, _ => []
  | k + 1, n => bigEndian k (n / 256) ++ [UInt8.ofNat (n % 256)]

/-- `newAccessTokenWithUsername` from the key on — /repo/serverlet/route_token.go:120-127, with `SigningMethodECDSA.Sign`: the empty text if
signing fails. -/
def jwtSign (ecdsa : Bytes → Option (Nat × Nat)) (c : Claims) : Bytes :=
  match ecdsa c.signingString with
  | none => []
  | some (r, s) => c.signingString ++ 46 :: b64Encode (bigEndian 32 r ++ bigEndian 32 s)

end Verif
