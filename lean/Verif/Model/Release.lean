import Verif.Model.Graph

/-!
# Release builds: `+ - *` wrap around instead of panicking

The rest of the model is the debug build, where an overflow of a plain `+`, `-` or `*` is a panic. Here are the functions of
which the arithmetic can overflow on legal arguments, as compiled in release mode. Divisions still panic on zero and on
`i64::MIN / -1`.
-/

namespace Chrono

/-- a wrapping `u32` operation -/
def wrapU32 (x : Int) : Nat := (x % 4294967296).toNat

/-- src/wins/timevalue.rs:193-202 `floor`, release build -/
def floorToR (t period : Int) : Res Int := do
  if t ≥ 0 then
    return asI64 ((← div64 t period) * period)
  else
    return asI64 (asI64 ((← div64 (asI64 (t + 1)) period) - 1) * period)

/-- src/wins/timevalue.rs:205-214 `ceil`, release build -/
def ceilToR (t period : Int) : Res Int := do
  if t > 0 then
    return asI64 (asI64 ((← div64 (asI64 (t - 1)) period) + 1) * period)
  else
    return asI64 ((← div64 (asI64 (t - 1)) period) * period)

/-- src/wins/timevalue.rs:64-74 `from_fract`, release build -/
def fromFractR (t unit : Int) : Res Int := do
  let sec ← div64 t unit
  let frac := asI64 (t - asI64 (sec * unit))
  if sec > MAX_SEC then
    return INF
  else
    let f ← div64 (shl30 frac) unit
    return asI64 (shl30 sec + f)

/-- src/wins/timevalue.rs:119 `from_millis`, release build -/
def fromMillisR (n : Int) : Res Int := fromFractR n 1000
/-- src/wins/timevalue.rs:126 `from_micros`, release build -/
def fromMicrosR (n : Int) : Res Int := fromFractR n 1000000
/-- src/wins/timevalue.rs:133 `from_nanos`, release build -/
def fromNanosR (n : Int) : Res Int := fromFractR n 1000000000

namespace Graph

/-- src/graph/storage.rs:76, 83: the cell of the pair `(i,j)`, release build -/
def cellR (i j : Nat) : Nat :=
  if i ≥ j then wrapU32 (wrapU32 ((i : Int) * i) + j)
  else wrapU32 (wrapU32 ((j : Int) * wrapU32 ((j : Int) + 2)) - i)

/-- src/graph/storage.rs:75-78 `lower`, release build -/
def lowerR (g : Graph) (i j : Nat) : Res Int := vget g.data (cellR i j)

/-- src/graph/storage.rs:82-85 `*lower_mut(i,j) = v`, release build -/
def setLowerR (g : Graph) (i j : Nat) (v : Int) : Res Graph := do
  return { g with data := ← vset g.data (cellR i j) v }

/-- src/graph/storage.rs:37-45 `resize`, release build -/
def resizeR (g : Graph) (n : Nat) : Res Graph := do
  let g' ← (List.range' g.size (n - g.size)).foldlM (fun g i => g.setLowerR i i 0)
    { g with data := vresize g.data (wrapU32 ((n : Int) * n)) (-INF) }
  return { g' with size := n }

/-- src/graph/storage.rs:21-26 `with_size`, release build -/
def withSizeR (n : Nat) : Res Graph := default.resizeR n

/-- src/graph/storage.rs:88-110 `timespan`, release build -/
def timespanR (g : Graph) (i j : Nat) : Res Iv :=
  if i ≥ j then
    if i ≥ g.size then .ok Iv.all
    else do
      let l ← vget g.data (wrapU32 (wrapU32 ((i : Int) * i) + j))
      let u ← vget g.data (wrapU32 (wrapU32 ((i : Int) * wrapU32 ((i : Int) + 2)) - j))
      return ⟨l, tvNeg u⟩
  else
    if j ≥ g.size then .ok Iv.all
    else do
      let l ← vget g.data (wrapU32 (wrapU32 ((j : Int) * wrapU32 ((j : Int) + 2)) - i))
      let u ← vget g.data (wrapU32 (wrapU32 ((j : Int) * j) + i))
      return ⟨l, tvNeg u⟩

/-- src/graph/storage.rs:72 `shrink_to`: the argument of `Vec::shrink_to` is computed, the content does not change (the capacity
is not modelled). -/
def shrinkTo (g : Graph) (n : Nat) : Res Graph := do
  let _ ← chkU32 ((n : Int) * n)
  return g

end Graph
end Chrono
