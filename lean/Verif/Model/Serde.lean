import Verif.Model.TimeSet

/-!
# Serialization (feature `serde`)

`TimeValue`, `Timestamp`, `TimeInterval` and `TimeSet` derive `Serialize` and `Deserialize`; the graph and the scheduler do not. The
derived code is modelled on serde's data model: the values every format (JSON, ..) writes and reads. Text or binary formats are not
modelled.
-/

namespace Chrono

/-- A value of serde's data model, restricted to what these four types use: integers of any size (a format may hold one which is not an
`i64`), sequences and structures. -/
inductive Data where
  | int (n : Int)
  | seq (l : List Data)
  | struct (l : List (String × Data))

/-- What a derived `Deserialize` reports. -/
inductive DeError where
  | invalidType | outOfRange | missingField | duplicateField | invalidLength
  deriving DecidableEq, Repr

namespace Serde

/-- src/wins/timevalue.rs:11, src/wins/timestamp.rs:9 `derive(Serialize)` on a structure with one unnamed field: the field itself. A
`Timestamp` holds a `TimeValue`, so it is written the same way. -/
def serValue (t : Int) : Data := .int t

/-- src/wins/timeinterval.rs:18-19 `derive(Serialize)`: a structure with the fields `lower` and `upper`. -/
def serIv (i : Iv) : Data := .struct [("lower", serValue i.lower), ("upper", serValue i.upper)]

/-- src/wins/timeset.rs:19-20 `derive(Serialize)` on `TimeSet(Vec<TimeInterval>)`: the sequence of the intervals. -/
def serSet (s : TSet) : Data := .seq (s.map serIv)

/-- src/wins/timevalue.rs:11, src/wins/timestamp.rs:9 `derive(Deserialize)`: any integer which fits an `i64`. -/
def deValue : Data → Except DeError Int
  | .int n => if I64_MIN ≤ n ∧ n ≤ I64_MAX then .ok n else .error .outOfRange
  | _ => .error .invalidType

/-- The derived `visit_map`: read the entries in any order, ignore the unknown ones, refuse a repeated one. -/
def deFields : Option Int → Option Int → List (String × Data) → Except DeError (Option Int × Option Int)
  | l, u, [] => .ok (l, u)
  | l, u, (k, d) :: r =>
    if k = "lower" then
      match l with
      | some _ => .error .duplicateField
      | none => do let n ← deValue d; deFields (some n) u r
    else if k = "upper" then
      match u with
      | some _ => .error .duplicateField
      | none => do let n ← deValue d; deFields l (some n) r
    else deFields l u r

/-- src/wins/timeinterval.rs:18-19 `derive(Deserialize)`: a structure with the two fields, or (compact formats) the two values in order. -/
def deIv : Data → Except DeError Iv
  | .struct l => do
    match ← deFields none none l with
    | (some a, some b) => .ok ⟨a, b⟩
    | _ => .error .missingField
  | .seq [x, y] => do
    let a ← deValue x
    let b ← deValue y
    .ok ⟨a, b⟩
  | .seq _ => .error .invalidLength
  | .int _ => .error .invalidType

/-- src/wins/timeset.rs:19-20 `derive(Deserialize)`: the intervals in the order in which they come. -/
def deSet : Data → Except DeError TSet
  | .seq l => l.mapM deIv
  | _ => .error .invalidType

end Serde
end Chrono
