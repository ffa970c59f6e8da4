/-!
# Go primitives: results, bytes, fixed-width integers

These definitions model the Go language and standard library, not code of `/repo`
(they are part of the trusted base, see DESIGN.md section 1).
-/

namespace Verif

/-- Go `[]byte` and Go `string` (a Go string is an immutable byte sequence). -/
abbrev Bytes := List UInt8

/-- The bytes of an ASCII string literal (used in examples and for the literals of the source). -/
def ascii (s : String) : Bytes := s.toList.map (fun c => UInt8.ofNat c.toNat)

/-- Outcome of a Go call: a value, a returned `error`, a run-time panic, or no return at all. -/
inductive Res (α : Type) where
  | ok (a : α)
  | err (msg : String)
  | panic
  | diverge
  deriving DecidableEq, Repr

namespace Res

/-- Sequencing: anything but `ok` stops the computation. -/
def bind {α β : Type} : Res α → (α → Res β) → Res β
  | ok a, f => f a
  | err e, _ => err e
  | panic, _ => panic
  | diverge, _ => diverge

instance : Monad Res where
  pure := ok
  bind := bind

@[simp] theorem pure_eq {α : Type} (a : α) : (pure a : Res α) = ok a := rfl
@[simp] theorem ok_bind {α β : Type} (a : α) (f : α → Res β) : (ok a >>= f) = f a := rfl
@[simp] theorem err_bind {α β : Type} (e : String) (f : α → Res β) : ((err e : Res α) >>= f) = err e := rfl
@[simp] theorem panic_bind {α β : Type} (f : α → Res β) : ((panic : Res α) >>= f) = panic := rfl
@[simp] theorem diverge_bind {α β : Type} (f : α → Res β) : ((diverge : Res α) >>= f) = diverge := rfl

/-- The call returned normally (a value or an `error`), i.e. it neither panicked nor ran forever. -/
def Returns {α : Type} : Res α → Prop
  | ok _ => True
  | err _ => True
  | panic => False
  | diverge => False

/-- The call returned normally, and any value returned satisfies `P`. -/
def Sat {α : Type} (r : Res α) (P : α → Prop) : Prop :=
  match r with
  | ok a => P a
  | err _ => True
  | panic => False
  | diverge => False

theorem Sat.bind {α β : Type} {r : Res α} {f : α → Res β} {P : α → Prop} {Q : β → Prop}
    (h : r.Sat P) (hf : ∀ a, P a → (f a).Sat Q) : (r >>= f).Sat Q := by
  cases r with
  | ok a => exact hf a h
  | err e => trivial
  | panic => exact h
  | diverge => exact h

theorem Sat.mono {α : Type} {r : Res α} {P Q : α → Prop} (h : r.Sat P) (hpq : ∀ a, P a → Q a) : r.Sat Q := by
  cases r with
  | ok a => exact hpq a h
  | err e => trivial
  | panic => exact h
  | diverge => exact h

theorem Sat.returns {α : Type} {r : Res α} {P : α → Prop} (h : r.Sat P) : r.Returns := by
  cases r with
  | ok a => trivial
  | err e => trivial
  | panic => exact h
  | diverge => exact h

theorem bind_eq_ok {α β : Type} {r : Res α} {f : α → Res β} {b : β} :
    (r >>= f) = ok b ↔ ∃ a, r = ok a ∧ f a = ok b := by
  cases r <;> simp

instance {α : Type} (r : Res α) : Decidable r.Returns := by
  cases r <;> simp only [Returns] <;> infer_instance

end Res

/-! ## Little-endian integers (`encoding/binary.LittleEndian`) -/

/-- `PutUint16`. -/
def le16 (v : UInt16) : Bytes :=
  [UInt8.ofNat (v.toNat % 256), UInt8.ofNat (v.toNat / 256 % 256)]

/-- `PutUint32`. -/
def le32 (v : UInt32) : Bytes :=
  [UInt8.ofNat (v.toNat % 256), UInt8.ofNat (v.toNat / 256 % 256),
   UInt8.ofNat (v.toNat / 65536 % 256), UInt8.ofNat (v.toNat / 16777216 % 256)]

/-- Value of a little-endian byte sequence. -/
def leNat : Bytes → Nat
  | [] => 0
  | b :: bs => b.toNat + 256 * leNat bs

/-- `Uint16` of a 2-byte slice. -/
def rd16 (b : Bytes) : UInt16 := UInt16.ofNat (leNat (b.take 2))

/-- `Uint32` of a 4-byte slice. -/
def rd32 (b : Bytes) : UInt32 := UInt32.ofNat (leNat (b.take 4))

@[simp] theorem le16_length (v : UInt16) : (le16 v).length = 2 := rfl
@[simp] theorem le32_length (v : UInt32) : (le32 v).length = 4 := rfl

@[simp] theorem rd16_le16 (v : UInt16) : rd16 (le16 v) = v := by
  apply UInt16.toNat_inj.mp
  have h := v.toNat_lt
  simp only [rd16, le16, leNat, List.take_succ_cons, List.take_zero, UInt8.toNat_ofNat', UInt16.toNat_ofNat']
  omega

@[simp] theorem rd32_le32 (v : UInt32) : rd32 (le32 v) = v := by
  apply UInt32.toNat_inj.mp
  have h := v.toNat_lt
  simp only [rd32, le32, leNat, List.take_succ_cons, List.take_zero, UInt8.toNat_ofNat', UInt32.toNat_ofNat']
  omega

/-! ## Times: `time.Time` is modelled by its Unix seconds -/

/-- `uint32(t.Unix())`: conversion of a 64-bit integer keeps the low 32 bits. -/
def unixU32 (t : Int) : UInt32 := UInt32.ofNat (t % 4294967296).toNat

/-- `time.Unix(int64(u), 0)`, as Unix seconds. -/
def timeOfU32 (u : UInt32) : Int := (u.toNat : Int)

/-- Unix seconds of Go's zero `time.Time` (January 1, year 1, UTC). -/
def zeroTimeUnix : Int := -62135596800

theorem timeOfU32_unixU32 {t : Int} (h0 : 0 ≤ t) (h1 : t < 4294967296) :
    timeOfU32 (unixU32 t) = t := by
  simp only [timeOfU32, unixU32, UInt32.toNat_ofNat']
  omega

@[simp] theorem unixU32_timeOfU32 (u : UInt32) : unixU32 (timeOfU32 u) = u := by
  apply UInt32.toNat_inj.mp
  have h := u.toNat_lt
  simp only [timeOfU32, unixU32, UInt32.toNat_ofNat']
  omega

end Verif
