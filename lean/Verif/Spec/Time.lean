import Verif.Model.Interval

/-!
# Specification vocabulary: dates, windows, sets

Written without reference to how the program computes.
-/

namespace Chrono.Spec
open Chrono

/-- A legal time value: −∞ (`-INF`), a finite number of ticks, or +∞ (`INF`). -/
def Legal (t : Int) : Prop := -INF ≤ t ∧ t ≤ INF

/-- A date (or finite duration): strictly between −∞ and +∞. -/
def Date (t : Int) : Prop := -INF < t ∧ t < INF

/-- The point `t` belongs to the closed interval. -/
def InIv (t : Int) (i : Iv) : Prop := i.lower ≤ t ∧ t ≤ i.upper

/-- The point `t` belongs to one of the intervals. -/
def InSet (t : Int) (s : List Iv) : Prop := ∃ i ∈ s, InIv t i

/-- A well-formed interval: ordered bounds, and not reduced to an infinity. -/
structure WF (i : Iv) : Prop where
  le : i.lower ≤ i.upper
  lo : -INF ≤ i.lower
  hi : i.upper ≤ INF
  lo_lt : i.lower < INF
  lt_hi : -INF < i.upper

/-- A canonical set: well-formed intervals, in chronological order, two successive ones being
separated by at least one missing tick. -/
structure Canon (s : List Iv) : Prop where
  wf : ∀ i ∈ s, WF i
  gap : s.Pairwise (fun a b => a.upper + 1 < b.lower)

/-- The dates denoted by a convex window: `a..b` excludes `b`, `a..=b` includes it, and so on. -/
def InConvex (t : Int) : Convex → Prop
  | .iv i => InIv t i
  | .point p => t = p
  | .range a b => a ≤ t ∧ t < b
  | .rangeFrom a => a ≤ t
  | .rangeIncl a b => a ≤ t ∧ t ≤ b
  | .rangeTo b => t < b
  | .rangeToIncl b => t ≤ b

/-- Windows whose bounds are used sensibly: an interval is well formed or the canonical empty one, a
point is a date, the bounds of a range leave room for a date on their open side (a range with
crossed bounds, such as `5..3`, is allowed: it is empty). -/
def Proper : Convex → Prop
  | .iv i => WF i ∨ i = ⟨INF, -INF⟩
  | .point p => Date p
  | .range a b => -INF ≤ a ∧ a < INF ∧ -INF + 1 < b ∧ b ≤ INF
  | .rangeFrom a => -INF ≤ a ∧ a < INF
  | .rangeIncl a b => -INF ≤ a ∧ a < INF ∧ -INF < b ∧ b ≤ INF
  | .rangeTo b => -INF + 1 < b ∧ b ≤ INF
  | .rangeToIncl b => -INF < b ∧ b ≤ INF

/-- All the bounds of the window are legal time values. -/
def LegalBounds : Convex → Prop
  | .iv i => Legal i.lower ∧ Legal i.upper
  | .point p => Legal p
  | .range a b => Legal a ∧ Legal b
  | .rangeFrom a => Legal a
  | .rangeIncl a b => Legal a ∧ Legal b
  | .rangeTo b => Legal b
  | .rangeToIncl b => Legal b

/-- The point `t` of the unbounded time line belongs to the interval, an infinite bound meaning no
bound at all. On dates this is `InIv`; it is used for arithmetic, where a sum of dates may be out of
the representable range. -/
def InExt (t : Int) (i : Iv) : Prop := (i.lower = -INF ∨ i.lower ≤ t) ∧ (i.upper = INF ∨ t ≤ i.upper)

/-- The same for a list of intervals. -/
def InExtSet (t : Int) (s : List Iv) : Prop := ∃ i ∈ s, InExt t i

instance (t : Int) : Decidable (Legal t) := inferInstanceAs (Decidable (_ ∧ _))
instance (t : Int) : Decidable (Date t) := inferInstanceAs (Decidable (_ ∧ _))
instance (t : Int) (i : Iv) : Decidable (InIv t i) := inferInstanceAs (Decidable (_ ∧ _))
instance (t : Int) (s : List Iv) : Decidable (InSet t s) := inferInstanceAs (Decidable (∃ i ∈ s, _))
instance (i : Iv) : Decidable (WF i) :=
  decidable_of_iff (i.lower ≤ i.upper ∧ -INF ≤ i.lower ∧ i.upper ≤ INF ∧ i.lower < INF ∧
    -INF < i.upper) ⟨fun ⟨a, b, c, d, e⟩ => ⟨a, b, c, d, e⟩, fun ⟨a, b, c, d, e⟩ => ⟨a, b, c, d, e⟩⟩
instance (s : List Iv) : Decidable (Canon s) :=
  decidable_of_iff ((∀ i ∈ s, WF i) ∧ s.Pairwise (fun a b => a.upper + 1 < b.lower))
    ⟨fun ⟨a, b⟩ => ⟨a, b⟩, fun ⟨a, b⟩ => ⟨a, b⟩⟩
instance (t : Int) (w : Convex) : Decidable (InConvex t w) := by
  cases w <;> unfold InConvex <;> infer_instance

instance (w : Convex) : Decidable (Proper w) := by
  cases w <;> unfold Proper <;> infer_instance
instance (w : Convex) : Decidable (LegalBounds w) := by
  cases w <;> unfold LegalBounds <;> infer_instance
instance (t : Int) (i : Iv) : Decidable (InExt t i) := inferInstanceAs (Decidable (_ ∧ _))
instance (t : Int) (s : List Iv) : Decidable (InExtSet t s) :=
  inferInstanceAs (Decidable (∃ i ∈ s, _))

/-- A time value read as an extended tick count, with its infinities. Used to state what arithmetic
"should" give. -/
inductive Ext where
  | negInf | fin (n : Int) | posInf
  deriving DecidableEq

/-- The extended value of a legal time value. -/
def ext (t : Int) : Ext := if t = INF then .posInf else if t = -INF then .negInf else .fin t

/-- Rounding an exact tick count to a time value: out of range goes to the infinity of that side. -/
def round (n : Int) : Int := if n ≥ INF then INF else if n ≤ -INF then -INF else n

/-- The numbers of an integer type. -/
def OfType : IntTy → Int → Prop
  | .i8, x => -2^7 ≤ x ∧ x < 2^7
  | .u8, x => 0 ≤ x ∧ x < 2^8
  | .i16, x => -2^15 ≤ x ∧ x < 2^15
  | .u16, x => 0 ≤ x ∧ x < 2^16
  | .i32, x => -2^31 ≤ x ∧ x < 2^31
  | .u32, x => 0 ≤ x ∧ x < 2^32
  | .i64, x | .isize, x => -2^63 ≤ x ∧ x < 2^63
  | .u64, x | .usize, x => 0 ≤ x ∧ x < 2^64
  | .i128, x => -2^127 ≤ x ∧ x < 2^127
  | .u128, x => 0 ≤ x ∧ x < 2^128

/-- Division rounding towards zero, described by its properties. -/
def IsTruncDiv (q a b : Int) : Prop :=
  (q * b).natAbs ≤ a.natAbs ∧ a.natAbs < (q * b).natAbs + b.natAbs ∧ (0 ≤ a → 0 ≤ q * b) ∧ (a ≤ 0 → q * b ≤ 0)

end Chrono.Spec
