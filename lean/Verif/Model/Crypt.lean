import Verif.Model.CryptTables
import Verif.Go.Buf
import Verif.Model.Userec
/-!
# Password hashing and verification

/repo/crypt and `VerifyPassword` of /repo/pttbbs/passwd.go. `uint32` is `BitVec 32`; shift counts are the constants of the
source. Assignments to the variables `t`, `u` that are never read again are left out (`dEncrypt` returns them, `body` only
passes them on).
-/

namespace Verif

/-- `uint32(b)` of a byte. -/
def word (b : UInt8) : W := b.toBitVec.setWidth 32

/-- `c2l` — /repo/crypt/utils.go:3-5. -/
def c2l (c : Bytes) : W :=
  word (byteAt c 0) ||| word (byteAt c 1) <<< 8 ||| word (byteAt c 2) <<< 16 ||| word (byteAt c 3) <<< 24

/-- `uint8(w)`. -/
def lowByte (w : W) : UInt8 := ⟨w.setWidth 8⟩

/-- `l2c` — /repo/crypt/utils.go:7-13: the four bytes written. -/
def l2c (l : W) : Bytes :=
  [lowByte (l &&& 0xff), lowByte ((l >>> 8) &&& 0xff), lowByte ((l >>> 16) &&& 0xff), lowByte ((l >>> 24) &&& 0xff)]

/-- `permOp` — /repo/crypt/utils.go:15-22. -/
def permOp (a b : W) (n : Nat) (m : W) : W × W :=
  let t := ((a >>> n) ^^^ b) &&& m
  (a ^^^ (t <<< n), b ^^^ t)

/-- `hPermOp` — /repo/crypt/utils.go:24-28; `n` is the value of `16 - n` there. -/
def hPermOp (a : W) (n : Nat) (m : W) : W :=
  let t := ((a <<< n) ^^^ a) &&& m
  a ^^^ t ^^^ (t >>> n)

/-- `spTrans[k][i]`. -/
def sp (k : Nat) (i : W) : W := (spTrans.getD k []).getD i.toNat 0

/-- `skb[k][i]`. -/
def skbAt (k : Nat) (i : W) : W := (skb.getD k []).getD i.toNat 0

/-- First part of `desSetKey` (permuted choice 1) — /repo/crypt/crypt.go:108-133. -/
def setKeyPC1 (c d : W) : W × W :=
  let (d, c) := permOp d c 4 0x0f0f0f0f
  let c := hPermOp c 18 0xcccc0000
  let d := hPermOp d 18 0xcccc0000
  let (d, c) := permOp d c 1 0x55555555
  let (c, d) := permOp c d 8 0x00ff00ff
  let (d, c) := permOp d c 1 0x55555555
  let d := ((d &&& 0x000000ff) <<< 16) ||| (d &&& 0x0000ff00) ||| ((d &&& 0x00ff0000) >>> 16) |||
    ((c &&& 0xf0000000) >>> 4)
  let c := c &&& 0x0fffffff
  (c, d)

/-- The rotation of a key half — /repo/crypt/crypt.go:139-154. -/
def rotateHalf (two : Bool) (c : W) : W :=
  (if two then (c >>> 2) ||| (c <<< 26) else (c >>> 1) ||| (c <<< 27)) &&& 0x0fffffff

/-- The tables applied to the first half — /repo/crypt/crypt.go:157-161. -/
def keyS (c : W) : W :=
  skbAt 0 (c &&& 0x3f) ||| skbAt 1 (((c >>> 6) &&& 0x03) ||| ((c >>> 7) &&& 0x3c)) |||
    skbAt 2 (((c >>> 13) &&& 0x0f) ||| ((c >>> 14) &&& 0x30)) |||
    skbAt 3 (((c >>> 20) &&& 0x01) ||| ((c >>> 21) &&& 0x06) ||| ((c >>> 22) &&& 0x38))

/-- The tables applied to the second half — /repo/crypt/crypt.go:162-165. -/
def keyT (d : W) : W :=
  skbAt 4 (d &&& 0x3f) ||| skbAt 5 (((d >>> 7) &&& 0x03) ||| ((d >>> 8) &&& 0x3c)) ||| skbAt 6 ((d >>> 15) &&& 0x3f) |||
    skbAt 7 (((d >>> 21) &&& 0x0f) ||| ((d >>> 22) &&& 0x30))

/-- The two words of a round key — /repo/crypt/crypt.go:168-173. -/
def roundWords (c d : W) : W × W :=
  let s := keyS c
  let t := keyT d
  let k0 := (t <<< 16) ||| (s &&& 0x0000ffff)
  let s := (s >>> 16) ||| (t &&& 0xffff0000)
  (k0, (s <<< 4) ||| (s >>> 28))

/-- The loop of `desSetKey` — /repo/crypt/crypt.go:138-176. -/
def keyLoop : List Bool → W → W → List W
  | [], _, _ => []
  | b :: bs, c, d =>
    let c := rotateHalf b c
    let d := rotateHalf b d
    (roundWords c d).1 :: (roundWords c d).2 :: keyLoop bs c d

/-- `desSetKey` — /repo/crypt/crypt.go:104-177. -/
def desSetKey (key : Bytes) : List W :=
  let (c, d) := setKeyPC1 (c2l (slice key 0 4)) (c2l (slice key 4 8))
  keyLoop shifts2 c d

/-- `s[i]` of the key schedule. -/
def ksAt (s : List W) (i : Nat) : W := s.getD i 0

/-- The value of `u` in `dEncrypt` — /repo/crypt/crypt.go:180-186. -/
def roundU (R E0 k : W) : W :=
  let t := R ^^^ (R >>> 16)
  let u := t &&& E0
  (u ^^^ (u <<< 16)) ^^^ R ^^^ k

/-- The value of `t` in `dEncrypt` — /repo/crypt/crypt.go:180-193. -/
def roundT (R E1 k : W) : W :=
  let t := R ^^^ (R >>> 16)
  let t := t &&& E1
  let t := (t ^^^ (t <<< 16)) ^^^ R ^^^ k
  (t >>> 4) ||| (t <<< 28)

/-- The table lookups of `dEncrypt` — /repo/crypt/crypt.go:195-202. -/
def spLookup (t u : W) : W :=
  sp 1 (t &&& 0x3f) ||| sp 3 ((t >>> 8) &&& 0x3f) ||| sp 5 ((t >>> 16) &&& 0x3f) ||| sp 7 ((t >>> 24) &&& 0x3f) |||
    sp 0 (u &&& 0x3f) ||| sp 2 ((u >>> 8) &&& 0x3f) ||| sp 4 ((u >>> 16) &&& 0x3f) ||| sp 6 ((u >>> 24) &&& 0x3f)

/-- `dEncrypt` — /repo/crypt/crypt.go:179-207: the new value of `L`. -/
def dEncrypt (L R : W) (S : Nat) (E0 E1 : W) (s : List W) : W :=
  L ^^^ spLookup (roundT R E1 (ksAt s (S + 1))) (roundU R E0 (ksAt s S))

/-- The inner loop of `body`: `n` more steps of four key words each, from index `i` — /repo/crypt/crypt.go:222-230. -/
def desLoop (s : List W) (E0 E1 : W) : Nat → Nat → W × W → W × W
  | 0, _, lr => lr
  | n + 1, i, (l, r) =>
    let l := dEncrypt l r i E0 E1 s
    let r := dEncrypt r l (i + 2) E0 E1 s
    desLoop s E0 E1 n (i + 4) (l, r)

/-- The outer loop of `body` — /repo/crypt/crypt.go:221-235. -/
def bodyLoop (s : List W) (E0 E1 : W) : Nat → W × W → W × W
  | 0, lr => lr
  | j + 1, lr =>
    let (l, r) := desLoop s E0 E1 8 0 lr
    bodyLoop s E0 E1 j (r, l)

/-- The final permutation — /repo/crypt/crypt.go:238-258. -/
def finalPerm (l r : W) : W × W :=
  let t := r
  let r := (l >>> 1) ||| (l <<< 31)
  let l := (t >>> 1) ||| (t <<< 31)
  let (r, l) := permOp r l 1 0x55555555
  let (l, r) := permOp l r 8 0x00ff00ff
  let (r, l) := permOp r l 2 0x33333333
  let (l, r) := permOp l r 16 0x0000ffff
  let (r, l) := permOp r l 4 0x0f0f0f0f
  (l, r)

/-- `body` — /repo/crypt/crypt.go:209-261. -/
def cryptBody (ks : List W) (E0 E1 : W) : W × W :=
  let (l, r) := bodyLoop ks E0 E1 25 (0, 0)
  finalPerm l r

/-- State of the printing loops: byte number, bit, value so far. -/
structure PrintState where
  y : Nat
  u : UInt8
  c : Nat
  deriving DecidableEq, Repr

/-- Body of the inner printing loop — /repo/crypt/crypt.go:76-84. -/
def printBit (bb : Bytes) (s : PrintState) : PrintState :=
  let c := 2 * s.c
  let c := if byteAt bb s.y &&& s.u ≠ 0 then c ||| 1 else c
  let u := s.u >>> 1
  if u = 0 then ⟨s.y + 1, 0x80, c⟩ else ⟨s.y, u, c⟩

/-- The printing loops: `n` more characters — /repo/crypt/crypt.go:73-88. -/
def printChars (bb : Bytes) : Nat → Nat → UInt8 → Bytes
  | 0, _, _ => []
  | n + 1, y, u =>
    let s := printBit bb (printBit bb (printBit bb (printBit bb (printBit bb (printBit bb ⟨y, u, 0⟩)))))
    cov2char.getD s.c 0 :: printChars bb n s.y s.u

/-- The key block — /repo/crypt/crypt.go:16-18, 39-47. -/
def cryptKey (buf : Bytes) : Bytes :=
  let buf := if 8 < buf.length then buf.take 8 else buf
  let k := (buf.takeWhile (· ≠ 0)).map (fun c : UInt8 => c <<< 1)
  k ++ zeros (8 - k.length)

/-- A salt byte — /repo/crypt/crypt.go:21-24. -/
def saltByte (s : UInt8) : UInt8 := if s ≠ 0 then s else 65

/-- `conSalt[x]`, which panics on a byte above 127. -/
def conSaltAt (x : UInt8) : Res W := if x.toNat < 128 then .ok (BitVec.ofNat 32 (conSalt.getD x.toNat 0)) else .panic

/-- `cFcrypt` — /repo/crypt/crypt.go:15-91: the 14 bytes of the output buffer. `salt[0]` and `salt[1]` panic on a salt that
is too short. -/
def cFcrypt (buf salt : Bytes) : Res Bytes :=
  match salt with
  | [] => .panic
  | s0 :: rest => do
    let x0 := saltByte s0
    let E0 ← conSaltAt x0
    match rest with
    | [] => .panic
    | s1 :: _ => do
      let x1 := saltByte s1
      let c1 ← conSaltAt x1
      let E1 := c1 <<< 4
      let (l, r) := cryptBody (desSetKey (cryptKey buf)) E0 E1
      let bb := l2c l ++ l2c r ++ [0]
      .ok (x0 :: x1 :: printChars bb 11 0 0x80 ++ [0])

/-- `Fcrypt` — /repo/crypt/bbscrypt.go:19-23. -/
def fcrypt (key salt : Bytes) : Res Bytes := cFcrypt key salt

/-- `VerifyPassword` on the stored hash — /repo/pttbbs/passwd.go:156-168. `u.password[:2]` panics if it is too short. -/
def verifyHash (stored password : Bytes) : Res Unit :=
  if stored.length < 2 then .panic
  else do
    let res ← fcrypt password (stored.take 2)
    if trimNul res ≠ stored then .err "password incorrect" else .ok ()

/-- `VerifyPassword` — /repo/pttbbs/passwd.go:156-168. -/
def Userec.verifyPassword (u : Userec) (password : Bytes) : Res Unit := verifyHash u.password password

end Verif
