/-!
# Shared vocabulary of the model: panics and machine integers

Every definition of `Verif.Model` cites the file and lines of the Rust source it transcribes.
-/

namespace Chrono

/-- The ways a modelled function can stop abnormally.
`outOfBounds` is an access outside a vector: a panic for checked indexing, undefined behaviour for
`get_unchecked`. A result `Except.ok _` therefore also shows that no unchecked access went wrong. -/
inductive Panic where
  | assertFail | debugAssert | overflow | divZero | unwrapNone | outOfBounds | stackOverflow
  deriving DecidableEq, Repr

/-- Result of a function which may panic. -/
abbrev Res (α : Type) := Except Panic α

deriving instance DecidableEq for Except

/-- `i64::MAX` -/
def I64_MAX : Int := 9223372036854775807
/-- `i64::MIN` -/
def I64_MIN : Int := -9223372036854775808
/-- 2^30 : ticks in one second (src/lib.rs:50, `SUBSEC_BITLEN = 30`). -/
def TICKS : Int := 1073741824

/-- src/lib.rs:48 `INFINITE_TIME_VALUE = i64::MAX`. -/
def INF : Int := 9223372036854775807
/-- src/lib.rs:59 `MAX_SEC = i64::MAX >> 30`. -/
def MAX_SEC : Int := 8589934591

/-- A checked `i64` operation: the exact result, or the overflow panic of a debug build.
(A release build would wrap; the model keeps the debug meaning.) -/
def chk64 (x : Int) : Res Int :=
  if I64_MIN ≤ x ∧ x ≤ I64_MAX then .ok x else .error .overflow

/-- A checked `u64`/`usize` operation (64-bit target). -/
def chkU64 (x : Int) : Res Int :=
  if 0 ≤ x ∧ x ≤ 18446744073709551615 then .ok x else .error .overflow

/-- A checked `u32` operation. -/
def chkU32 (x : Int) : Res Nat :=
  if 0 ≤ x ∧ x ≤ 4294967295 then .ok x.toNat else .error .overflow

/-- `i64::saturating_*` : clamp to the i64 range. -/
def sat64 (x : Int) : Int := if x < I64_MIN then I64_MIN else if I64_MAX < x then I64_MAX else x

/-- `i64` division `/` (truncates towards zero; panics on 0 and on `i64::MIN / -1`). -/
def div64 (a b : Int) : Res Int :=
  if b = 0 then .error .divZero else chk64 (a.tdiv b)

/-- `i64::saturating_div` -/
def satDiv64 (a b : Int) : Res Int :=
  if b = 0 then .error .divZero else .ok (sat64 (a.tdiv b))

/-- `x << 30` on `i64`: the bits shifted out are lost (no overflow check on `<<`). -/
def shl30 (x : Int) : Int := Int.bmod (x * TICKS) 18446744073709551616

/-- `usize as i64`, and other casts to i64: keeps the low 64 bits. -/
def asI64 (x : Int) : Int := Int.bmod x 18446744073709551616
/-- `i64 as usize` (64-bit target): keeps the low 64 bits. -/
def asU64 (x : Int) : Int := x % 18446744073709551616

end Chrono
