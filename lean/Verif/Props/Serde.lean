import Verif.Model.Serde
import Verif.Props.Set

/-!
# Serialization (C113)
-/

namespace Chrono
open Spec Serde

theorem deValue_ok {n : Int} (h : I64_MIN ≤ n ∧ n ≤ I64_MAX) : deValue (.int n) = .ok n := by rw [deValue, if_pos h]

theorem deIv_ok {i : Iv} (h : I64_MIN ≤ i.lower ∧ i.lower ≤ I64_MAX) (h' : I64_MIN ≤ i.upper ∧ i.upper ≤ I64_MAX) :
    deIv (serIv i) = .ok i := by
  simp only [serIv, serValue, deIv, deFields, deValue_ok h, deValue_ok h']
  rfl

theorem deSet_ok : ∀ {s : TSet},
    (∀ i ∈ s, (I64_MIN ≤ i.lower ∧ i.lower ≤ I64_MAX) ∧ I64_MIN ≤ i.upper ∧ i.upper ≤ I64_MAX) → deSet (serSet s) = .ok s := by
  intro s h
  show (s.map serIv).mapM deIv = .ok s
  induction s with
  | nil => rfl
  | cons i r ih =>
    have hi := h i (by simp)
    rw [List.map_cons, List.mapM_cons, deIv_ok hi.1 hi.2, ih (fun j hj => h j (List.mem_cons_of_mem _ hj))]
    rfl

/-- C113. Whatever the crate writes reads back as the same value: durations, timestamps, intervals (empty or not) and canonical sets. Missing: what is
read from elsewhere, see `C113_unchecked_violated`. -/
theorem C113_round_trip_partial (t : Int) (i : Iv) (s : TSet) (ht : Legal t) (hi : WF i ∨ i = Iv.empty) (hs : Canon s) :
    deValue (serValue t) = .ok t ∧ deIv (serIv i) = .ok i ∧ deSet (serSet s) = .ok s := by
  have k : ∀ j : Iv, WF j → (I64_MIN ≤ j.lower ∧ j.lower ≤ I64_MAX) ∧ I64_MIN ≤ j.upper ∧ j.upper ≤ I64_MAX := by
    rintro j ⟨h1, h2, h3, h4, h5⟩
    simp only [I64_MIN, I64_MAX, INF] at *
    omega
  refine ⟨deValue_ok ?_, ?_, deSet_ok fun j hj => k j (hs.wf j hj)⟩
  · obtain ⟨h1, h2⟩ := ht
    simp only [I64_MIN, I64_MAX, INF] at *
    omega
  · rcases hi with h | h
    · exact deIv_ok (k i h).1 (k i h).2
    · subst h; exact deIv_ok (by decide) (by decide)

/-- C113. Different values are written differently. -/
theorem C113_injective (i j : Iv) (a b : TSet) :
    (serIv i = serIv j → i = j) ∧ (serSet a = serSet b → a = b) := by
  have k : ∀ x y : Iv, serIv x = serIv y → x = y := by
    intro x y h
    cases x; cases y
    simp only [serIv, serValue, Data.struct.injEq, List.cons.injEq, Prod.mk.injEq, Data.int.injEq, true_and, and_true] at h
    rw [h.1, h.2]
  refine ⟨k i j, fun h => ?_⟩
  simp only [serSet, Data.seq.injEq] at h
  exact List.map_inj_right (fun x y => k x y) |>.1 h

/-- C113 fails for data which the crate did not write: nothing is checked. Every pair of `i64` is accepted as the bounds of an interval, and every
sequence of such pairs as a set, in that order; so the result breaks the documented invariants exactly when the data does. -/
theorem C113_unchecked_violated (s : TSet)
    (h : ∀ i ∈ s, (I64_MIN ≤ i.lower ∧ i.lower ≤ I64_MAX) ∧ I64_MIN ≤ i.upper ∧ i.upper ≤ I64_MAX) :
    deSet (serSet s) = .ok s ∧ (∀ i ∈ s, deIv (serIv i) = .ok i ∧ deIv (.seq [serValue i.lower, serValue i.upper]) = .ok i) := by
  refine ⟨deSet_ok h, fun i hi => ⟨deIv_ok (h i hi).1 (h i hi).2, ?_⟩⟩
  simp only [deIv, serValue, deValue_ok (h i hi).1, deValue_ok (h i hi).2]
  rfl

/-- For instance the interval `[5, 3]` and the set `{[10, 20], [0, 15]}`, neither of which the crate can build, and the duration `i64::MIN`, below
`-oo`. -/
theorem C113_reversed_violated :
    deIv (serIv ⟨5, 3⟩) = .ok ⟨5, 3⟩ ∧ ¬ WF ⟨5, 3⟩ ∧ (⟨5, 3⟩ : Iv) ≠ Iv.empty ∧
    deSet (serSet [⟨10, 20⟩, ⟨0, 15⟩]) = .ok [⟨10, 20⟩, ⟨0, 15⟩] ∧ ¬ Canon [⟨10, 20⟩, ⟨0, 15⟩] ∧
    deValue (serValue I64_MIN) = .ok I64_MIN ∧ ¬ Legal I64_MIN :=
  ⟨deIv_ok (by decide) (by decide), by rintro ⟨h, -⟩; exact absurd h (by decide), by decide, deSet_ok (by decide), by decide,
    deValue_ok (by decide), by decide⟩

/-- C113. What is refused: an integer which is not an `i64`, a missing or repeated bound. The order of the two bounds, and unknown fields, do not
matter. -/
theorem C113_fields (a b : Int) (ha : I64_MIN ≤ a ∧ a ≤ I64_MAX) (hb : I64_MIN ≤ b ∧ b ≤ I64_MAX) (d x : Data) (k : String)
    (hk : k ≠ "lower") (hk' : k ≠ "upper") :
    deIv (.struct [("upper", .int b), ("lower", .int a)]) = .ok ⟨a, b⟩ ∧
    deIv (.struct [("lower", .int a), (k, d), ("upper", .int b)]) = .ok ⟨a, b⟩ ∧
    deIv (.struct [("lower", .int a)]) = .error .missingField ∧ deIv (.struct [("upper", .int b)]) = .error .missingField ∧
    deIv (.struct [("lower", .int a), ("upper", .int b), ("lower", x)]) = .error .duplicateField ∧
    (∀ n : Int, n < I64_MIN ∨ I64_MAX < n → deValue (.int n) = .error .outOfRange) := by
  refine ⟨?_, ?_, ?_, ?_, ?_, ?_⟩
  all_goals first
    | (simp [deIv, deFields, deValue_ok ha, deValue_ok hb, bind, Except.bind, hk, hk']; done)
    | skip
  intro n hn
  rw [deValue, if_neg (by omega)]

/-- the entry of a field which has been read -/
def ReadAs (f : String) (l : List (String × Data)) : Option Int → Option Int → Prop
  | some x, r => l.filter (fun e => e.1 == f) = [] ∧ r = some x
  | none, none => l.filter (fun e => e.1 == f) = []
  | none, some n => l.filter (fun e => e.1 == f) = [(f, .int n)] ∧ I64_MIN ≤ n ∧ n ≤ I64_MAX

theorem deValue_iff {d : Data} {n : Int} : deValue d = .ok n ↔ d = .int n ∧ I64_MIN ≤ n ∧ n ≤ I64_MAX := by
  cases d with
  | int m =>
    rw [deValue]
    split
    · rename_i h
      constructor
      · intro e; cases e; exact ⟨rfl, h⟩
      · rintro ⟨e, -⟩; cases e; rfl
    · rename_i h
      constructor
      · intro e; cases e
      · rintro ⟨e, h'⟩; cases e; exact absurd h' h
  | seq l => exact ⟨fun e => (nomatch e), fun ⟨e, _⟩ => (nomatch e)⟩
  | struct l => exact ⟨fun e => (nomatch e), fun ⟨e, _⟩ => (nomatch e)⟩

theorem deFields_iff (l : List (String × Data)) : ∀ (a b a' b' : Option Int),
    deFields a b l = .ok (a', b') ↔ ReadAs "lower" l a a' ∧ ReadAs "upper" l b b' := by
  induction l with
  | nil =>
    intro a b a' b'
    rw [deFields]
    cases a <;> cases b <;> cases a' <;> cases b' <;> simp [ReadAs] <;> grind
  | cons e r ih =>
    obtain ⟨k, d⟩ := e
    intro a b a' b'
    by_cases c1 : k = "lower"
    · subst c1
      cases a with
      | some x =>
        simp [deFields, ReadAs, List.filter_cons]
      | none =>
        have e0 : deFields none b (("lower", d) :: r) = (do let n ← deValue d; deFields (some n) b r) := by
          simp [deFields]
        rw [e0]
        cases hd : deValue d with
        | error er =>
          have : ∀ n, deValue d ≠ .ok n := fun n h => by rw [hd] at h; cases h
          constructor
          · intro h; cases h
          · rintro ⟨h1, -⟩
            exfalso
            cases a' with
            | none => simp [ReadAs, List.filter_cons] at h1
            | some n =>
              simp [ReadAs, List.filter_cons] at h1
              exact this n (deValue_iff.2 ⟨h1.1.1, h1.2⟩)
        | ok n =>
          have hn := deValue_iff.1 hd
          show deFields (some n) b r = _ ↔ _
          rw [ih]
          obtain ⟨rfl, h1, h2⟩ := hn
          cases a' <;> simp [ReadAs, List.filter_cons] <;> grind
    · by_cases c2 : k = "upper"
      · subst c2
        cases b with
        | some x => cases a <;> simp [deFields, ReadAs, List.filter_cons]
        | none =>
          have e0 : deFields a none (("upper", d) :: r) = (do let n ← deValue d; deFields a (some n) r) := by
            cases a <;> simp [deFields]
          rw [e0]
          cases hd : deValue d with
          | error er =>
            have : ∀ n, deValue d ≠ .ok n := fun n h => by rw [hd] at h; cases h
            constructor
            · intro h; cases h
            · rintro ⟨-, h1⟩
              exfalso
              cases b' with
              | none => simp [ReadAs, List.filter_cons] at h1
              | some n =>
                simp [ReadAs, List.filter_cons] at h1
                exact this n (deValue_iff.2 ⟨h1.1.1, h1.2⟩)
          | ok n =>
            have hn := deValue_iff.1 hd
            show deFields a (some n) r = _ ↔ _
            rw [ih]
            obtain ⟨rfl, h1, h2⟩ := hn
            cases a <;> cases a' <;> cases b' <;> simp [ReadAs, List.filter_cons] <;> grind
      · have e0 : deFields a b ((k, d) :: r) = deFields a b r := by
          cases a <;> cases b <;> simp [deFields, c1, c2]
        rw [e0, ih]
        cases a <;> cases b <;> cases a' <;> cases b' <;> simp [ReadAs, List.filter_cons, c1, c2]

/-- C113. What is read as an interval, decided exactly: a structure with exactly one field `lower` and one field `upper`, both of them integers of 64
bits, whatever the other fields and the order; or (compact formats) the sequence of the two integers. Everything else is refused. -/
theorem C113_interval_exact (d : Data) (i : Iv) :
    deIv d = .ok i ↔ (I64_MIN ≤ i.lower ∧ i.lower ≤ I64_MAX) ∧ (I64_MIN ≤ i.upper ∧ i.upper ≤ I64_MAX) ∧
      ((∃ l, d = .struct l ∧ l.filter (fun e => e.1 == "lower") = [("lower", .int i.lower)] ∧
          l.filter (fun e => e.1 == "upper") = [("upper", .int i.upper)]) ∨ d = .seq [.int i.lower, .int i.upper]) := by
  cases d with
  | int n => exact ⟨fun e => (nomatch e), fun ⟨_, _, h⟩ => by rcases h with ⟨l, e, -⟩ | e <;> cases e⟩
  | struct l =>
    have e : deIv (.struct l) = .ok i ↔ deFields none none l = .ok (some i.lower, some i.upper) := by
      rw [deIv]
      cases h : deFields none none l with
      | error er => exact ⟨fun e => (nomatch e), fun e => (nomatch e)⟩
      | ok p =>
        obtain ⟨a, b⟩ := p
        cases i
        cases a <;> cases b <;> simp [bind, Except.bind]
    rw [e, deFields_iff]
    constructor
    · rintro ⟨⟨h1, h2⟩, h3, h4⟩; exact ⟨h2, h4, Or.inl ⟨l, rfl, h1, h3⟩⟩
    · rintro ⟨h1, h2, ⟨l', e, h3, h4⟩ | e⟩
      · cases e; exact ⟨⟨h3, h1⟩, h4, h2⟩
      · cases e
  | seq l =>
    have no : ∀ x y z r, l = x :: y :: z :: r → deIv (.seq l) ≠ .ok i := by
      rintro x y z r rfl h; cases h
    match l, no with
    | [], _ => exact ⟨fun e => (nomatch e), fun ⟨_, _, h⟩ => by rcases h with ⟨l, e, -⟩ | e <;> cases e⟩
    | [x], _ => exact ⟨fun e => (nomatch e), fun ⟨_, _, h⟩ => by rcases h with ⟨l, e, -⟩ | e <;> cases e⟩
    | [x, y], _ =>
      rw [deIv]
      constructor
      · intro h
        cases hx : deValue x with
        | error er => rw [hx] at h; cases h
        | ok a =>
          cases hy : deValue y with
          | error er => rw [hx, hy] at h; cases h
          | ok b =>
            rw [hx, hy] at h
            cases h
            obtain ⟨e1, h1⟩ := deValue_iff.1 hx
            obtain ⟨e2, h2⟩ := deValue_iff.1 hy
            exact ⟨h1, h2, Or.inr (by rw [e1, e2])⟩
      · rintro ⟨h1, h2, ⟨l', e, -⟩ | e⟩
        · cases e
        · cases e
          rw [deValue_ok h1, deValue_ok h2]
          rfl
    | x :: y :: z :: r, no =>
      exact ⟨fun e => absurd e (no x y z r rfl), fun ⟨_, _, h⟩ => by rcases h with ⟨l, e, -⟩ | e <;> cases e⟩

/-- C113. What is read as a set, decided exactly: a sequence of readable intervals, in that order. -/
theorem C113_set_exact (d : Data) (s : TSet) :
    deSet d = .ok s ↔ ∃ l, d = .seq l ∧ l.length = s.length ∧ ∀ (n : Nat) x i, l[n]? = some x → s[n]? = some i → deIv x = .ok i := by
  have key : ∀ (l : List Data) (s : TSet), l.mapM deIv = .ok s ↔
      l.length = s.length ∧ ∀ (n : Nat) x i, l[n]? = some x → s[n]? = some i → deIv x = .ok i := by
    intro l
    induction l with
    | nil =>
      intro s
      rw [List.mapM_nil]
      constructor
      · intro h; cases h; exact ⟨rfl, fun n x i h => by simp at h⟩
      · rintro ⟨h, -⟩
        cases s with
        | nil => rfl
        | cons => cases h
    | cons d r ih =>
      intro s
      rw [List.mapM_cons]
      constructor
      · intro h
        cases hd : deIv d with
        | error er => rw [hd] at h; cases h
        | ok j =>
          cases hr : r.mapM deIv with
          | error er => rw [hd, hr] at h; cases h
          | ok q =>
            rw [hd, hr] at h
            cases h
            obtain ⟨h1, h2⟩ := (ih q).1 hr
            refine ⟨by simp [h1], fun n x i hx hi => ?_⟩
            cases n with
            | zero =>
              simp only [List.getElem?_cons_zero, Option.some.injEq] at hx hi
              rw [← hx, ← hi, hd]
            | succ n => exact h2 n x i (by simpa using hx) (by simpa using hi)
      · rintro ⟨h1, h2⟩
        cases s with
        | nil => cases h1
        | cons j q =>
          have e1 := h2 0 d j rfl rfl
          have e2 := (ih q).2 ⟨by simpa using h1, fun n x i hx hi => h2 (n + 1) x i (by simpa using hx) (by simpa using hi)⟩
          rw [e1, e2]
          rfl
  cases d with
  | int n => exact ⟨fun e => (nomatch e), fun ⟨_, e, _⟩ => (nomatch e)⟩
  | struct l => exact ⟨fun e => (nomatch e), fun ⟨_, e, _⟩ => (nomatch e)⟩
  | seq l =>
    rw [deSet, key]
    constructor
    · rintro ⟨h1, h2⟩; exact ⟨l, rfl, h1, h2⟩
    · rintro ⟨l', e, h1, h2⟩; cases e; exact ⟨h1, h2⟩


example : Legal 100 ∧ WF ⟨0, INF⟩ ∧ Canon [⟨-INF, 3⟩, ⟨10, 20⟩] ∧
    serSet [⟨-INF, 3⟩, ⟨10, 20⟩] = .seq [.struct [("lower", .int (-INF)), ("upper", .int 3)],
      .struct [("lower", .int 10), ("upper", .int 20)]] :=
  ⟨by decide, by constructor <;> decide, by decide, rfl⟩

end Chrono
