import Verif.Go.Basic
/-!
# crypt(3), the traditional DES-based password hash

Written from the published description (FIPS 46 for DES; the manual page of crypt(3) for the rest), independently of
`/repo/crypt`. Bits are numbered from 1, the first one is the most significant of its byte, as in FIPS 46.
-/

namespace Verif.Spec.DES

abbrev Bits := List Bool

/-- Bit `i` (from 1). -/
def bit (b : Bits) (i : Nat) : Bool := b.getD (i - 1) false

/-- The bits of `b` in the order the table lists them. -/
def permute (table : List Nat) (b : Bits) : Bits := table.map (bit b)

/-- Initial permutation. -/
def IP : List Nat := [
    58, 50, 42, 34, 26, 18, 10, 2,
    60, 52, 44, 36, 28, 20, 12, 4,
    62, 54, 46, 38, 30, 22, 14, 6,
    64, 56, 48, 40, 32, 24, 16, 8,
    57, 49, 41, 33, 25, 17, 9, 1,
    59, 51, 43, 35, 27, 19, 11, 3,
    61, 53, 45, 37, 29, 21, 13, 5,
    63, 55, 47, 39, 31, 23, 15, 7]

/-- Final permutation (the inverse of `IP`). -/
def FP : List Nat := [
    40, 8, 48, 16, 56, 24, 64, 32,
    39, 7, 47, 15, 55, 23, 63, 31,
    38, 6, 46, 14, 54, 22, 62, 30,
    37, 5, 45, 13, 53, 21, 61, 29,
    36, 4, 44, 12, 52, 20, 60, 28,
    35, 3, 43, 11, 51, 19, 59, 27,
    34, 2, 42, 10, 50, 18, 58, 26,
    33, 1, 41, 9, 49, 17, 57, 25]

/-- Expansion of a half block to 48 bits. -/
def E : List Nat := [
    32, 1, 2, 3, 4, 5,
    4, 5, 6, 7, 8, 9,
    8, 9, 10, 11, 12, 13,
    12, 13, 14, 15, 16, 17,
    16, 17, 18, 19, 20, 21,
    20, 21, 22, 23, 24, 25,
    24, 25, 26, 27, 28, 29,
    28, 29, 30, 31, 32, 1]

/-- Permutation of the 32 bits that leave the S-boxes. -/
def P : List Nat := [
    16, 7, 20, 21, 29, 12, 28, 17,
    1, 15, 23, 26, 5, 18, 31, 10,
    2, 8, 24, 14, 32, 27, 3, 9,
    19, 13, 30, 6, 22, 11, 4, 25]

/-- Permuted choice 1: 56 of the 64 key bits; every eighth bit is the parity and is not used. -/
def PC1 : List Nat := [
    57, 49, 41, 33, 25, 17, 9, 1, 58, 50, 42, 34, 26, 18,
    10, 2, 59, 51, 43, 35, 27, 19, 11, 3, 60, 52, 44, 36,
    63, 55, 47, 39, 31, 23, 15, 7, 62, 54, 46, 38, 30, 22,
    14, 6, 61, 53, 45, 37, 29, 21, 13, 5, 28, 20, 12, 4]

/-- Permuted choice 2: 48 of the 56 key bits. -/
def PC2 : List Nat := [
    14, 17, 11, 24, 1, 5, 3, 28, 15, 6, 21, 10,
    23, 19, 12, 4, 26, 8, 16, 7, 27, 20, 13, 2,
    41, 52, 31, 37, 47, 55, 30, 40, 51, 45, 33, 48,
    44, 49, 39, 56, 34, 53, 46, 42, 50, 36, 29, 32]

/-- Left shifts of the key halves. -/
def shiftTable : List Nat := [
    1, 1, 2, 2, 2, 2, 2, 2, 1, 2, 2, 2, 2, 2, 2, 1]

/-- The S-boxes, four rows of 16 each. -/
def sBoxes : List (List Nat) := [
  [
    14, 4, 13, 1, 2, 15, 11, 8, 3, 10, 6, 12, 5, 9, 0, 7,
    0, 15, 7, 4, 14, 2, 13, 1, 10, 6, 12, 11, 9, 5, 3, 8,
    4, 1, 14, 8, 13, 6, 2, 11, 15, 12, 9, 7, 3, 10, 5, 0,
    15, 12, 8, 2, 4, 9, 1, 7, 5, 11, 3, 14, 10, 0, 6, 13],
  [
    15, 1, 8, 14, 6, 11, 3, 4, 9, 7, 2, 13, 12, 0, 5, 10,
    3, 13, 4, 7, 15, 2, 8, 14, 12, 0, 1, 10, 6, 9, 11, 5,
    0, 14, 7, 11, 10, 4, 13, 1, 5, 8, 12, 6, 9, 3, 2, 15,
    13, 8, 10, 1, 3, 15, 4, 2, 11, 6, 7, 12, 0, 5, 14, 9],
  [
    10, 0, 9, 14, 6, 3, 15, 5, 1, 13, 12, 7, 11, 4, 2, 8,
    13, 7, 0, 9, 3, 4, 6, 10, 2, 8, 5, 14, 12, 11, 15, 1,
    13, 6, 4, 9, 8, 15, 3, 0, 11, 1, 2, 12, 5, 10, 14, 7,
    1, 10, 13, 0, 6, 9, 8, 7, 4, 15, 14, 3, 11, 5, 2, 12],
  [
    7, 13, 14, 3, 0, 6, 9, 10, 1, 2, 8, 5, 11, 12, 4, 15,
    13, 8, 11, 5, 6, 15, 0, 3, 4, 7, 2, 12, 1, 10, 14, 9,
    10, 6, 9, 0, 12, 11, 7, 13, 15, 1, 3, 14, 5, 2, 8, 4,
    3, 15, 0, 6, 10, 1, 13, 8, 9, 4, 5, 11, 12, 7, 2, 14],
  [
    2, 12, 4, 1, 7, 10, 11, 6, 8, 5, 3, 15, 13, 0, 14, 9,
    14, 11, 2, 12, 4, 7, 13, 1, 5, 0, 15, 10, 3, 9, 8, 6,
    4, 2, 1, 11, 10, 13, 7, 8, 15, 9, 12, 5, 6, 3, 0, 14,
    11, 8, 12, 7, 1, 14, 2, 13, 6, 15, 0, 9, 10, 4, 5, 3],
  [
    12, 1, 10, 15, 9, 2, 6, 8, 0, 13, 3, 4, 14, 7, 5, 11,
    10, 15, 4, 2, 7, 12, 9, 5, 6, 1, 13, 14, 0, 11, 3, 8,
    9, 14, 15, 5, 2, 8, 12, 3, 7, 0, 4, 10, 1, 13, 11, 6,
    4, 3, 2, 12, 9, 5, 15, 10, 11, 14, 1, 7, 6, 0, 8, 13],
  [
    4, 11, 2, 14, 15, 0, 8, 13, 3, 12, 9, 7, 5, 10, 6, 1,
    13, 0, 11, 7, 4, 9, 1, 10, 14, 3, 5, 12, 2, 15, 8, 6,
    1, 4, 11, 13, 12, 3, 7, 14, 10, 15, 6, 8, 0, 5, 9, 2,
    6, 11, 13, 8, 1, 4, 10, 7, 9, 5, 0, 15, 14, 2, 3, 12],
  [
    13, 2, 8, 4, 6, 15, 11, 1, 10, 9, 3, 14, 5, 0, 12, 7,
    1, 15, 13, 8, 10, 3, 7, 4, 12, 5, 6, 11, 0, 14, 9, 2,
    7, 11, 4, 1, 9, 12, 14, 2, 0, 6, 10, 13, 15, 3, 5, 8,
    2, 1, 14, 7, 4, 10, 8, 13, 15, 12, 9, 0, 3, 5, 6, 11]]

/-- Row from the outer two bits, column from the inner four. -/
def sBox (k : Nat) (b : Bits) : Nat :=
  (sBoxes.getD k []).getD
    ((2 * (bit b 1).toNat + (bit b 6).toNat) * 16 +
      (8 * (bit b 2).toNat + 4 * (bit b 3).toNat + 2 * (bit b 4).toNat + (bit b 5).toNat)) 0

/-- Four bits, most significant first. -/
def nibble (n : Nat) : Bits := [n.testBit 3, n.testBit 2, n.testBit 1, n.testBit 0]

def xor (a b : Bits) : Bits := List.zipWith Bool.xor a b

/-- The 16 round keys. -/
def roundKeys (key : Bits) : List Bits := go shiftTable ((permute PC1 key).take 28) ((permute PC1 key).drop 28)
where
  go : List Nat → Bits → Bits → List Bits
    | [], _, _ => []
    | n :: ns, c, d =>
      let c := c.drop n ++ c.take n
      let d := d.drop n ++ d.take n
      permute PC2 (c ++ d) :: go ns c d

/-- Expansion, with bits `i` and `i + 24` of its result exchanged for every salt bit `i` (from 0, twelve of them) that is
set. -/
def expand (salt : Bits) (r : Bits) : Bits :=
  (List.range 48).map (fun i =>
    let j := if i < 24 then i + 24 else i - 24
    if salt.getD (i % 24) false then (permute E r).getD j false else (permute E r).getD i false)

/-- The cipher function of a round. -/
def f (salt r k : Bits) : Bits :=
  let x := xor (expand salt r) k
  permute P ((List.range 8).flatMap (fun i => nibble (sBox i ((x.drop (6 * i)).take 6))))

/-- The rounds. -/
def rounds (salt : Bits) : List Bits → Bits × Bits → Bits × Bits
  | [], s => s
  | k :: ks, (l, r) => rounds salt ks (r, xor l (f salt r k))

/-- DES with a salted expansion. -/
def encrypt (salt : Bits) (keys : List Bits) (block : Bits) : Bits :=
  let b := permute IP block
  let s := rounds salt keys (b.take 32, b.drop 32)
  permute FP (s.2 ++ s.1)

/-- Repeat. -/
def iterate (n : Nat) (g : Bits → Bits) (b : Bits) : Bits :=
  match n with
  | 0 => b
  | n + 1 => iterate n g (g b)

/-- The alphabet of salts and hashes: `.`, `/`, digits, capitals, small letters. -/
def alphabet : Bytes := ascii "./0123456789ABCDEFGHIJKLMNOPQRSTUVWXYZabcdefghijklmnopqrstuvwxyz"

/-- The seven low bits of a character, most significant first, followed by a parity bit that DES ignores. -/
def charBits (c : UInt8) : Bits := (List.range 7).map (fun i => c.toNat.testBit (6 - i)) ++ [false]

/-- A password as a key: its first eight characters, up to a NUL, filled up with zeros. -/
def keyBits (password : Bytes) : Bits :=
  let cs := (password.take 8).takeWhile (· ≠ 0)
  (cs ++ List.replicate (8 - cs.length) 0).flatMap charBits

/-- The twelve bits of two salt characters, the least significant bit of the first one first. -/
def saltBits (s0 s1 : UInt8) : Bits :=
  (List.range 6).map (fun i => (alphabet.idxOf s0).testBit i) ++ (List.range 6).map (fun i => (alphabet.idxOf s1).testBit i)

/-- The value of six bits, most significant first. -/
def sixBits (b : Bits) : Nat := b.foldl (fun n x => 2 * n + x.toNat) 0

/-- 64 bits as eleven characters (two zero bits are appended). -/
def printBlock (b : Bits) : Bytes :=
  (List.range 11).map (fun i => alphabet.getD (sixBits (((b ++ [false, false]).drop (6 * i)).take 6)) 0)

/-- crypt(3): the salt and 25-fold DES of the zero block. -/
def crypt3 (password : Bytes) (s0 s1 : UInt8) : Bytes :=
  s0 :: s1 :: printBlock (iterate 25 (encrypt (saltBits s0 s1) (roundKeys (keyBits password))) (List.replicate 64 false))

end Verif.Spec.DES
