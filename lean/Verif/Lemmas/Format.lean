import Verif.Model.Format
import Verif.Spec.Format
import Verif.Props.Duration
import Verif.Lemmas.Set

/-!
# Formatting
-/

set_option linter.unusedSimpArgs false

namespace Chrono
open Spec

theorem digitChar_eq {n : Nat} (h : n < 10) : digitChar n = n.digitChar := by
  have : ∀ m : Fin 10, digitChar m = (m : Nat).digitChar := by decide
  exact this ⟨n, h⟩

theorem natStr_eq (n : Nat) : natStr n = Nat.toDigits 10 n := by
  fun_induction natStr n with
  | case1 n h => rw [Nat.toDigits_of_lt_base h, digitChar_eq h]
  | case2 n h ih => rw [Nat.toDigits_eq_if (by decide), if_neg h, ih, digitChar_eq (by omega)]

theorem intStr_eq (x : Int) : intStr x = intText x := by
  unfold intStr intText
  split
  · rw [natStr_eq]
  · rw [natStr_eq]; congr 1; omega

theorem intStr_nat (n : Nat) : intStr (n : Int) = Nat.toDigits 10 n := by
  rw [intStr_eq]
  exact if_neg (by omega)

/-- the words for one unit -/
def mkPart (n : Nat) (u : TimeUnit) : Parts := if n = 0 then [] else [(n, u)]

/-- the text with the final space -/
def spaced (l : Parts) : List Char := l.flatMap fun p => Nat.toDigits 10 p.1 ++ p.2.name.toList ++ [' ']

theorem spaced_append (a b : Parts) : spaced (a ++ b) = spaced a ++ spaced b := by
  simp [spaced]

theorem spaced_part (n : Nat) (u : TimeUnit) : spaced (mkPart n u) =
    if n = 0 then [] else Nat.toDigits 10 n ++ u.name.toList ++ [' '] := by
  unfold mkPart spaced
  split <;> simp

theorem spaced_text : ∀ (l : Parts), l ≠ [] → spaced l = partsText l ++ [' ']
  | [], h => absurd rfl h
  | [p], _ => by simp [spaced, partsText]
  | p :: q :: l, _ => by
    have ih := spaced_text (q :: l) (by simp)
    have e : spaced (p :: q :: l) = Nat.toDigits 10 p.1 ++ p.2.name.toList ++ [' '] ++ spaced (q :: l) := by simp [spaced]
    rw [e, ih]
    simp only [partsText, List.map_cons, List.intercalate_cons_cons, List.append_assoc]

theorem nanos_append (a b : Parts) : partsNanos (a ++ b) = partsNanos a + partsNanos b := by
  simp [partsNanos]

theorem nanos_part (n : Nat) (u : TimeUnit) : partsNanos (mkPart n u) = n * u.nanos := by
  unfold mkPart partsNanos
  split <;> simp_all

theorem filter_part (n : Nat) (u : TimeUnit) (k : Nat) : (mkPart n u).filter (fun p => p.2.nanos < k) =
    if u.nanos < k then mkPart n u else [] := by
  unfold mkPart
  split <;> split <;> simp_all

/-- whole seconds in ticks -/
theorem fromSecs_small {n : Int} (h0 : 0 ≤ n) (h1 : n ≤ MAX_SEC) : fromSecs n = n * TICKS := by
  unfold fromSecs shl30
  rw [if_neg (by omega)]
  rw [Int.bmod_eq_of_le] <;> ticks

theorem conv_small {conv : Int → Int} {k : Int} (hk : 0 < k) (hc : ∀ n, conv n = fromSecs (sat64 (n * k))) (n : Int) (hn : 0 ≤ n)
    (hn' : n * k ≤ MAX_SEC) : conv n = n * (k * TICKS) := by
  have : 0 ≤ n * k := Int.mul_nonneg hn (by omega)
  have e : sat64 (n * k) = n * k := by
    unfold sat64
    rw [if_neg (by ticks), if_neg (by ticks)]
  rw [hc, e, fromSecs_small this hn', Int.mul_assoc]

theorem concatUnit_eq {t : Int} (h0 : 0 ≤ t) (h1 : t ≤ INF) (s : Parts) {conv : Int → Int} {k : Int} (hk0 : 0 < k)
    (hk : k ≤ MAX_SEC) (hs : ∀ n, 0 ≤ n → n * k ≤ MAX_SEC → conv n = n * (k * TICKS)) (u : TimeUnit) :
    concatUnit (t, spaced s) conv u.name =
      .ok (t % (k * TICKS), spaced (s ++ mkPart (t / (k * TICKS)).toNat u)) := by
  have hkT : 0 < k * TICKS := Int.mul_pos hk0 (by decide)
  have hdm : k * TICKS * (t / (k * TICKS)) + t % (k * TICKS) = t := Int.mul_ediv_add_emod ..
  have hm0 : 0 ≤ t % (k * TICKS) := Int.emod_nonneg _ (by omega)
  have hq0 : 0 ≤ t / (k * TICKS) := Int.ediv_nonneg h0 (by omega)
  have hqk : t / (k * TICKS) * k ≤ MAX_SEC := by
    have e : k * TICKS * (t / (k * TICKS)) = (t / (k * TICKS) * k) * TICKS := by
      rw [Int.mul_comm (k * TICKS), Int.mul_assoc]
    rw [e] at hdm
    generalize t / (k * TICKS) * k = z at *
    ticks
  have e1 : conv 1 = k * TICKS := by rw [hs 1 (by omega) (by omega)]; omega
  have ediv : div64 t (k * TICKS) = .ok (t / (k * TICKS)) := by
    unfold div64
    rw [if_neg (by omega), Int.tdiv_eq_ediv_of_nonneg h0]
    have hle : t / (k * TICKS) ≤ t := Int.ediv_le_self _ h0
    unfold chk64
    rw [if_pos]
    generalize t / (k * TICKS) = q at *
    ticks
  unfold concatUnit
  simp only [e1, ediv, ok_bind]
  rw [spaced_append, spaced_part]
  by_cases hq : t / (k * TICKS) = 0
  · rw [if_pos hq, if_pos (by omega), List.append_nil]
    rw [hq] at hdm
    have : t % (k * TICKS) = t := by omega
    rw [this]; rfl
  · rw [if_neg hq, if_neg (by omega)]
    have e2 : t - conv (t / (k * TICKS)) = t % (k * TICKS) := by
      rw [hs _ hq0 hqk, Int.mul_comm]; omega
    have e3 : chk64 (t % (k * TICKS)) = .ok (t % (k * TICKS)) := by
      have : t % (k * TICKS) ≤ t := by
        have : 0 ≤ k * TICKS * (t / (k * TICKS)) := Int.mul_nonneg (by omega) hq0
        omega
      unfold chk64
      rw [if_pos]
      generalize t % (k * TICKS) = q at *
      ticks
    have e4 : intStr (t / (k * TICKS)) = Nat.toDigits 10 (t / (k * TICKS)).toNat := by
      rw [← intStr_nat]; congr 1; omega
    simp only [e2, e3, ok_bind, e4, List.append_assoc]
    rfl

/-- the counts of the units under the second -/
def subMs (n : Nat) : Nat := if n > 1000000 then n / 1000000 else 0
def afterMs (n : Nat) : Nat := if n > 1000000 then n % 1000000 else n
def subUs (n : Nat) : Nat := if n > 1000 then n / 1000 else 0
def afterUs (n : Nat) : Nat := if n > 1000 then n % 1000 else n

theorem concatSubsec_eq (s : Parts) (n : Nat) : concatSubsec (spaced s) (n : Int) =
    spaced (s ++ mkPart (subMs n) ⟨"ms", 1000000⟩ ++ mkPart (subUs (afterMs n)) ⟨"us", 1000⟩ ++
      mkPart (afterUs (afterMs n)) ⟨"ns", 1⟩) := by
  have pos : ∀ (s : Parts) (n k : Nat) (u : TimeUnit), 0 < k → n > k →
      spaced s ++ intStr ((n : Int).tdiv k) ++ u.name.toList ++ [' '] = spaced (s ++ mkPart (n / k) u) := by
    intro s n k u hk c
    have e1 : (n : Int).tdiv k = ((n / k : Nat) : Int) := rfl
    have : n / k ≠ 0 := by
      have := Nat.div_pos (Nat.le_of_lt c) hk
      omega
    rw [e1, intStr_nat, spaced_append, spaced_part, if_neg this]
    simp
  have zero : ∀ u, mkPart 0 u = [] := fun u => rfl
  have tail : ∀ (s : Parts) (n : Nat), (if (n : Int) > 0 then spaced s ++ intStr n ++ "ns ".toList else spaced s) =
      spaced (s ++ mkPart n ⟨"ns", 1⟩) := by
    intro s n
    rw [spaced_append, spaced_part, intStr_nat]
    by_cases c : n = 0
    · rw [if_neg (by omega), if_pos c, List.append_nil]
    · rw [if_pos (by omega), if_neg c]; simp
  have mid : ∀ (s : Parts) (n : Nat),
      (let (str, nanos) := if (n : Int) > 1000 then (spaced s ++ intStr ((n : Int).tdiv 1000) ++ "us ".toList, (n : Int).tmod 1000)
        else (spaced s, (n : Int))
       if nanos > 0 then str ++ intStr nanos ++ "ns ".toList else str) =
      spaced (s ++ mkPart (subUs n) ⟨"us", 1000⟩ ++ mkPart (afterUs n) ⟨"ns", 1⟩) := by
    intro s n
    unfold subUs afterUs
    by_cases c : n > 1000
    · rw [if_pos (by omega), if_pos c, if_pos c]
      have := pos s n 1000 ⟨"us", 1000⟩ (by omega) c
      have e : spaced s ++ intStr ((n : Int).tdiv 1000) ++ "us ".toList = spaced (s ++ mkPart (n / 1000) ⟨"us", 1000⟩) := by
        rw [← this]; simp
      rw [e]
      exact tail _ (n % 1000)
    · rw [if_neg (by omega), if_neg c, if_neg c, zero, List.append_nil]
      exact tail _ n
  unfold concatSubsec subMs afterMs
  by_cases c : n > 1000000
  · rw [if_pos (by omega), if_pos c, if_pos c]
    have := pos s n 1000000 ⟨"ms", 1000000⟩ (by omega) c
    have e : spaced s ++ intStr ((n : Int).tdiv 1000000) ++ "ms ".toList = spaced (s ++ mkPart (n / 1000000) ⟨"ms", 1000000⟩) := by
      rw [← this]; simp
    rw [e]
    exact mid _ (n % 1000000)
  · rw [if_neg (by omega), if_neg c, if_neg c, zero, List.append_nil]
    exact mid _ n

/-- the words of a duration -/
def partsOf (t : Int) (ns : Nat) : Parts :=
  let d1 := t % (31556952 * TICKS)
  let d2 := d1 % (2629746 * TICKS)
  let d3 := d2 % (86400 * TICKS)
  let d4 := d3 % (3600 * TICKS)
  let d5 := d4 % (60 * TICKS)
  mkPart (t / (31556952 * TICKS)).toNat ⟨"y", 31556952 * 1000000000⟩ ++
  mkPart (d1 / (2629746 * TICKS)).toNat ⟨"mo", 2629746 * 1000000000⟩ ++
  mkPart (d2 / (86400 * TICKS)).toNat ⟨"d", 86400 * 1000000000⟩ ++
  mkPart (d3 / (3600 * TICKS)).toNat ⟨"h", 3600 * 1000000000⟩ ++
  mkPart (d4 / (60 * TICKS)).toNat ⟨"min", 60 * 1000000000⟩ ++
  mkPart (d5 / (1 * TICKS)).toNat ⟨"s", 1000000000⟩ ++
  mkPart (subMs ns) ⟨"ms", 1000000⟩ ++
  mkPart (subUs (afterMs ns)) ⟨"us", 1000⟩ ++
  mkPart (afterUs (afterMs ns)) ⟨"ns", 1⟩

theorem formatDuration_eq {t : Int} (h0 : 0 < t) (h1 : t < INF) {ns : Nat} (hn : subsecNanos t = .ok (ns : Int))
    (hns : ns ≤ 999999999) : formatDuration t = .ok (if (spaced (partsOf t ns)).isEmpty then "0".toList else (spaced (partsOf t ns)).dropLast) := by
  have hft : fromTicks t = t := by unfold fromTicks; ticks
  have hfn : fromNanos (ns : Int) = .ok (((ns : Int) * TICKS).tdiv 1000000000) :=
    (C07_subsec (ns : Int) (by ticks)).2.2.1 (by omega) (by omega)
  have hck : chk64 (t - ((ns : Int) * TICKS).tdiv 1000000000) = .ok (t - ((ns : Int) * TICKS).tdiv 1000000000) := by
    unfold chk64
    rw [if_pos]
    rw [tdiv_of_nonneg (by ticks)]
    ticks
  unfold formatDuration
  rw [if_pos (by omega), hft, hn]
  simp only [ok_bind, hfn, hck]
  rw [if_neg (by omega)]
  have m : ∀ (a : Int) (k : Int), 0 ≤ a → a ≤ INF → 0 < k → 0 ≤ a % k ∧ a % k ≤ INF := by
    intro a k h1 h2 hk
    have e1 := Int.emod_nonneg a (show k ≠ 0 by omega)
    have e2 := Int.mul_ediv_add_emod a k
    have e3 : 0 ≤ k * (a / k) := Int.mul_nonneg (by omega) (Int.ediv_nonneg h1 (by omega))
    omega
  have b0 : 0 ≤ t ∧ t ≤ INF := by omega
  have b1 := m t (31556952 * TICKS) b0.1 b0.2 (by decide)
  have b2 := m _ (2629746 * TICKS) b1.1 b1.2 (by decide)
  have b3 := m _ (86400 * TICKS) b2.1 b2.2 (by decide)
  have b4 := m _ (3600 * TICKS) b3.1 b3.2 (by decide)
  have b5 := m _ (60 * TICKS) b4.1 b4.2 (by decide)
  have k1 := concatUnit_eq b0.1 b0.2 [] (conv := fromYears) (k := 31556952) (by decide) (by decide) (conv_small (by decide) (fun _ => rfl)) ⟨"y", 31556952 * 1000000000⟩
  have k2 := fun s => concatUnit_eq b1.1 b1.2 s (conv := fromMonths) (k := 2629746) (by decide) (by decide) (conv_small (by decide) (fun _ => rfl)) ⟨"mo", 2629746 * 1000000000⟩
  have k3 := fun s => concatUnit_eq b2.1 b2.2 s (conv := fromDays) (k := 86400) (by decide) (by decide) (conv_small (by decide) (fun _ => rfl)) ⟨"d", 86400 * 1000000000⟩
  have k4 := fun s => concatUnit_eq b3.1 b3.2 s (conv := fromHours) (k := 3600) (by decide) (by decide) (conv_small (by decide) (fun _ => rfl)) ⟨"h", 3600 * 1000000000⟩
  have k5 := fun s => concatUnit_eq b4.1 b4.2 s (conv := fromMins) (k := 60) (by decide) (by decide) (conv_small (by decide) (fun _ => rfl)) ⟨"min", 60 * 1000000000⟩
  have k6 := fun s => concatUnit_eq b5.1 b5.2 s (conv := fromSecs) (k := 1) (by decide) (by decide) (fun n h1 h2 => by rw [fromSecs_small h1 (by omega), Int.one_mul]) ⟨"s", 1000000000⟩
  have k1 : concatUnit (t, []) fromYears "y" = _ := k1
  simp only at k2 k3 k4 k5 k6
  rw [k1, ok_bind, k2, ok_bind, k3, ok_bind, k4, ok_bind, k5, ok_bind, k6, ok_bind]
  simp only [concatSubsec_eq, List.nil_append]
  unfold partsOf
  simp only
  split <;> rfl

theorem map_part (n : Nat) (u : TimeUnit) : ((mkPart n u).map (·.2)).Sublist [u] := by
  unfold mkPart
  split
  · exact List.nil_sublist _
  · exact List.Sublist.refl _

theorem pos_part {n : Nat} {u : TimeUnit} : ∀ p ∈ mkPart n u, 0 < p.1 := by
  intro p hp
  unfold mkPart at hp
  split at hp
  · simp at hp
  · have : p = (n, u) := by simpa using hp
    rw [this]
    show 0 < n
    omega

theorem partsOf_ordered (t : Int) (ns : Nat) : Ordered (partsOf t ns) := by
  constructor
  · intro p hp
    unfold partsOf at hp
    simp only [List.mem_append] at hp
    rcases hp with (((((((h | h) | h) | h) | h) | h) | h) | h) | h <;> exact pos_part p h
  · unfold partsOf
    simp only [List.map_append]
    exact ((((((((map_part _ _).append (map_part _ _)).append (map_part _ _)).append (map_part _ _)).append
      (map_part _ _)).append (map_part _ _)).append (map_part _ _)).append (map_part _ _)).append (map_part _ _)

theorem sub_nanos (ns : Nat) : subMs ns * 1000000 + subUs (afterMs ns) * 1000 + afterUs (afterMs ns) * 1 = ns := by
  unfold subMs subUs afterUs afterMs
  split <;> split <;> omega

theorem partsOf_nanos {t : Int} (h0 : 0 ≤ t) (ns : Nat) : (partsNanos (partsOf t ns) : Int) = asSecs t * 1000000000 + ns := by
  have := sub_nanos ns
  unfold partsOf
  simp only [nanos_append, nanos_part, asSecs, TICKS]
  omega

theorem partsOf_reduced {t : Int} (h0 : 0 ≤ t) {ns : Nat} (hns : ns ≤ 999999999) (h1 : ns ≠ 1000000) (h2 : ns % 1000000 ≠ 1000) :
    Reduced (partsOf t ns) := by
  have hs := sub_nanos ns
  have hms : subUs (afterMs ns) * 1000 + afterUs (afterMs ns) * 1 < 1000000 := by
    unfold subUs afterUs afterMs
    split <;> split <;> omega
  have hus : afterUs (afterMs ns) * 1 < 1000 := by
    unfold afterUs afterMs
    split <;> split <;> omega
  have dm : ∀ (a : Int) (k : Int), 0 ≤ a → 0 < k → a = k * (a / k) + a % k ∧ 0 ≤ a % k ∧ a % k < k ∧ 0 ≤ a / k := fun a k h1 hk =>
    ⟨(Int.mul_ediv_add_emod a k).symm, Int.emod_nonneg _ (by omega), Int.emod_lt_of_pos _ hk, Int.ediv_nonneg h1 (by omega)⟩
  intro u hu
  unfold partsOf
  simp only [List.filter_append, filter_part, TICKS, Int.reduceMul]
  generalize subMs ns = a at *
  generalize subUs (afterMs ns) = b at *
  generalize afterUs (afterMs ns) = c at *
  obtain ⟨e1, f1, g1, q1⟩ := dm t 33884019200360448 h0 (by decide)
  generalize t / 33884019200360448 = Q1 at *
  generalize t % 33884019200360448 = D1 at *
  obtain ⟨e2, f2, g2, q2⟩ := dm D1 2823668266696704 f1 (by decide)
  generalize D1 / 2823668266696704 = Q2 at *
  generalize D1 % 2823668266696704 = D2 at *
  obtain ⟨e3, f3, g3, q3⟩ := dm D2 92771293593600 f2 (by decide)
  generalize D2 / 92771293593600 = Q3 at *
  generalize D2 % 92771293593600 = D3 at *
  obtain ⟨e4, f4, g4, q4⟩ := dm D3 3865470566400 f3 (by decide)
  generalize D3 / 3865470566400 = Q4 at *
  generalize D3 % 3865470566400 = D4 at *
  obtain ⟨e5, f5, g5, q5⟩ := dm D4 64424509440 f4 (by decide)
  generalize D4 / 64424509440 = Q5 at *
  generalize D4 % 64424509440 = D5 at *
  obtain ⟨e6, f6, g6, q6⟩ := dm D5 1073741824 f5 (by decide)
  generalize D5 / 1073741824 = Q6 at *
  generalize D5 % 1073741824 = D6 at *
  clear dm h1 h2
  have s5 : Q6 < 60 := by clear e1 e2 e3 e4 e5 g1 g2 g3 g4 hs hms hus; omega
  have l5 : 1073741824 * Q6 ≤ D5 := by omega
  have l4 : 1073741824 * (60 * Q5 + Q6) ≤ D4 := by clear e1 e2 e3 e4 g1 g2 g3 g4 hs hms hus; omega
  have s4 : 60 * Q5 + Q6 < 3600 := by clear e1 e2 e3 e4 e5 g1 g2 g3 hs hms hus; omega
  have l3 : 1073741824 * (3600 * Q4 + 60 * Q5 + Q6) ≤ D3 := by clear e1 e2 e3 e5 g1 g2 g3 g4 hs hms hus; omega
  have s3 : 3600 * Q4 + 60 * Q5 + Q6 < 86400 := by clear e1 e2 e3 e4 e5 g1 g2 hs hms hus; omega
  have l2 : 1073741824 * (86400 * Q3 + 3600 * Q4 + 60 * Q5 + Q6) ≤ D2 := by clear e1 e2 e4 e5 g1 g2 g3 g4 hs hms hus; omega
  have s2 : 86400 * Q3 + 3600 * Q4 + 60 * Q5 + Q6 < 2629746 := by clear e1 e2 e3 e4 e5 g1 hs hms hus; omega
  have l1 : 1073741824 * (2629746 * Q2 + 86400 * Q3 + 3600 * Q4 + 60 * Q5 + Q6) ≤ D1 := by
    clear e1 e3 e4 e5 g1 g2 g3 g4 hs hms hus; omega
  have s1 : 2629746 * Q2 + 86400 * Q3 + 3600 * Q4 + 60 * Q5 + Q6 < 31556952 := by clear e1 e2 e3 e4 e5 hs hms hus; omega
  clear e1 e2 e3 e4 e5 e6 f1 f2 f3 f4 f5 f6 g1 g2 g3 g4 g5 g6 l1 l2 l3 l4 l5
  obtain ⟨x1, rfl⟩ := Int.eq_ofNat_of_zero_le q1
  obtain ⟨x2, rfl⟩ := Int.eq_ofNat_of_zero_le q2
  obtain ⟨x3, rfl⟩ := Int.eq_ofNat_of_zero_le q3
  obtain ⟨x4, rfl⟩ := Int.eq_ofNat_of_zero_le q4
  obtain ⟨x5, rfl⟩ := Int.eq_ofNat_of_zero_le q5
  obtain ⟨x6, rfl⟩ := Int.eq_ofNat_of_zero_le q6
  simp only [Int.toNat_natCast]
  clear q1 q2 q3 q4 q5 q6
  simp only [timeUnits, List.mem_cons, List.not_mem_nil, or_false] at hu
  rcases hu with rfl | rfl | rfl | rfl | rfl | rfl | rfl | rfl | rfl <;>
    simp only [Nat.reduceMul, Nat.reduceLT, Nat.lt_irrefl, if_true, if_false, List.append_nil, List.nil_append, nanos_append, nanos_part]
  · (clear hus hms; omega)
  · (clear hus hms; omega)
  · (clear hus hms; omega)
  · (clear hus hms; omega)
  · (clear hus hms; omega)
  · (clear hus hms; omega)
  · omega
  · omega
  · decide

/-! ## Debug -/

theorem split_at {c : Char} : ∀ {x x' r r' : List Char}, c ∉ x → c ∉ x' → x ++ c :: r = x' ++ c :: r' → x = x' ∧ r = r'
  | [], [], r, r', _, _, h => by simpa using h
  | [], a :: x', r, r', _, h2, h => by
    simp only [List.nil_append, List.cons_append, List.cons.injEq] at h
    exact absurd h.1 (fun e => h2 (by simp [e]))
  | a :: x, [], r, r', h1, _, h => by
    simp only [List.nil_append, List.cons_append, List.cons.injEq] at h
    exact absurd h.1 (fun e => h1 (by simp [e]))
  | a :: x, b :: x', r, r', h1, h2, h => by
    simp only [List.cons_append, List.cons.injEq] at h
    have := split_at (fun hc => h1 (by simp [hc])) (fun hc => h2 (by simp [hc])) h.2
    exact ⟨by rw [h.1, this.1], this.2⟩

theorem toDigits_inj {m n : Nat} (h : Nat.toDigits 10 m = Nat.toDigits 10 n) : m = n := by
  rw [← Nat.ofDigitChars_ten_toDigits (n := m), h, Nat.ofDigitChars_ten_toDigits]

theorem digit_char {c : Char} {n : Nat} (h : c ∈ Nat.toDigits 10 n) : c.isDigit := Nat.isDigit_of_mem_toDigits (by decide) (by decide) h

theorem intText_chars {c : Char} {x : Int} (h : c ∈ intText x) : c = '-' ∨ c.isDigit := by
  unfold intText at h
  split at h
  · rcases List.mem_cons.1 h with e | e
    · exact Or.inl e
    · exact Or.inr (digit_char e)
  · exact Or.inr (digit_char h)

theorem intText_ne (x : Int) : intText x ≠ [] := by
  unfold intText
  split
  · simp
  · exact Nat.toDigits_ne_nil

theorem intText_inj {x y : Int} (h : intText x = intText y) : x = y := by
  have key : ∀ (m : Nat) (l : List Char), Nat.toDigits 10 m ≠ '-' :: l := by
    intro m l e
    have : ('-' : Char).isDigit := digit_char (n := m) (by rw [e]; simp)
    exact absurd this (by decide)
  unfold intText at h
  split at h <;> split at h
  · have := toDigits_inj (List.cons.inj h).2; omega
  · exact absurd h.symm (key _ _)
  · exact absurd h (key _ _)
  · have := toDigits_inj h; omega

/-- what is needed of the debug text of dates -/
structure DebugOk (dbg : Int → List Char) : Prop where
  inj : ∀ a b, Date a → Date b → dbg a = dbg b → a = b
  comma : ∀ a, Date a → ',' ∉ dbg a
  u : ∀ a, Date a → 'U' ∉ dbg a
  ne : ∀ a, Date a → dbg a ≠ []

theorem debugTv_eq {t : Int} (h : Date t) : debugTv t = intText t := by
  obtain ⟨h1, h2⟩ := h
  unfold debugTv isFutureInfinite isPastInfinite
  have e1 : (t == INF) = false := by simp; omega
  have e2 : (t == -INF) = false := by simp; omega
  rw [e1, e2, intStr_eq]
  simp

theorem debugTv_ok : DebugOk debugTv where
  inj := fun a b ha hb h => intText_inj (by rw [← debugTv_eq ha, ← debugTv_eq hb]; exact h)
  comma := fun a ha h => by
    rw [debugTv_eq ha] at h
    exact absurd (intText_chars h) (by decide)
  u := fun a ha h => by
    rw [debugTv_eq ha] at h
    exact absurd (intText_chars h) (by decide)
  ne := fun a ha => by rw [debugTv_eq ha]; exact intText_ne a

theorem debugTs_ok : DebugOk debugTs where
  inj := fun a b ha hb h => debugTv_ok.inj a b ha hb (List.append_cancel_left h)
  comma := fun a ha h => by
    rcases List.mem_append.1 h with h | h
    · exact absurd h (by decide)
    · exact debugTv_ok.comma a ha h
  u := fun a ha h => by
    rcases List.mem_append.1 h with h | h
    · exact absurd h (by decide)
    · exact debugTv_ok.u a ha h
  ne := fun a _ => by simp [debugTs]

/-- the four shapes of the debug text of an interval -/
theorem debugIv_cases (dbg : Int → List Char) {i : Iv} (h : WF i) :
    (∃ a, i = ⟨a, a⟩ ∧ Date a ∧ debugIv dbg i = ['{'] ++ dbg a ++ ['}']) ∨
    (∃ a b, i = ⟨a, b⟩ ∧ Date a ∧ Date b ∧ a < b ∧ debugIv dbg i = ['['] ++ dbg a ++ [','] ++ dbg b ++ [']']) ∨
    (∃ a, i = ⟨a, INF⟩ ∧ Date a ∧ debugIv dbg i = ['['] ++ dbg a ++ ",+oo[".toList) ∨
    (∃ b, i = ⟨-INF, b⟩ ∧ Date b ∧ debugIv dbg i = "]-oo,".toList ++ dbg b ++ [']']) ∨
    (i = ⟨-INF, INF⟩ ∧ debugIv dbg i = "]-oo,+oo[".toList) := by
  obtain ⟨h1, h2, h3, h4, h5⟩ := h
  obtain ⟨a, b⟩ := i
  simp only at h1 h2 h3 h4 h5
  unfold debugIv Iv.isLowBounded Iv.isUpBounded isPastInfinite isFutureInfinite
  by_cases c1 : a = -INF
  · by_cases c2 : b = INF
    · subst c1 c2
      exact Or.inr (Or.inr (Or.inr (Or.inr ⟨rfl, rfl⟩)))
    · refine Or.inr (Or.inr (Or.inr (Or.inl ⟨b, by rw [c1], ⟨h5, by omega⟩, ?_⟩)))
      simp [c1, c2]
  · by_cases c2 : b = INF
    · refine Or.inr (Or.inr (Or.inl ⟨a, by rw [c2], ⟨by omega, h4⟩, ?_⟩))
      simp [c1, c2]
    · by_cases c3 : a = b
      · refine Or.inl ⟨a, by rw [c3], ⟨by omega, h4⟩, ?_⟩
        subst c3
        simp [c1, c2]
      · refine Or.inr (Or.inl ⟨a, b, rfl, ⟨by omega, h4⟩, ⟨h5, by omega⟩, by omega, ?_⟩)
        simp [c1, c2, c3]

theorem debugIv_u {dbg : Int → List Char} (hd : DebugOk dbg) {i : Iv} (h : WF i) : 'U' ∉ debugIv dbg i := by
  rcases debugIv_cases dbg h with ⟨a, -, ha, e⟩ | ⟨a, b, -, ha, hb, -, e⟩ | ⟨a, -, ha, e⟩ | ⟨b, -, hb, e⟩ | ⟨-, e⟩ <;> rw [e]
  · have := hd.u a ha; simp [this]
  · have := hd.u a ha; have := hd.u b hb; simp [*]
  · have := hd.u a ha; simp [this]
  · have := hd.u b hb; simp [this]
  · decide

theorem debugIv_empty {dbg : Int → List Char} (hd : DebugOk dbg) {i : Iv} (h : WF i) : debugIv dbg i ≠ "{}".toList := by
  rcases debugIv_cases dbg h with ⟨a, -, ha, e⟩ | ⟨a, b, -, ha, hb, -, e⟩ | ⟨a, -, ha, e⟩ | ⟨b, -, hb, e⟩ | ⟨-, e⟩ <;> rw [e]
  · have := hd.ne a ha
    intro h
    obtain ⟨c, l, e⟩ := List.exists_cons_of_ne_nil this
    rw [e] at h
    simp at h
  · simp
  · simp
  · simp
  · decide

theorem debugIv_inj {dbg : Int → List Char} (hd : DebugOk dbg) {i j : Iv} (hi : WF i) (hj : WF j)
    (h : debugIv dbg i = debugIv dbg j) : i = j := by
  rcases debugIv_cases dbg hi with ⟨a, hi, ha, e⟩ | ⟨a, b, hi, ha, hb, hab, e⟩ | ⟨a, hi, ha, e⟩ | ⟨b, hi, hb, e⟩ | ⟨hi, e⟩ <;>
  rcases debugIv_cases dbg hj with ⟨a', hj, ha', e'⟩ | ⟨a', b', hj, ha', hb', hab', e'⟩ | ⟨a', hj, ha', e'⟩ | ⟨b', hj, hb', e'⟩ | ⟨hj, e'⟩ <;>
  rw [e, e'] at h <;> rw [hi, hj] <;>
  try (exfalso; simp at h; done)
  · have := hd.inj a a' ha ha' (List.append_cancel_left (List.append_cancel_right h))
    rw [this]
  · simp only [List.append_assoc, List.cons_append, List.nil_append, List.cons.injEq, true_and] at h
    obtain ⟨h1, h2⟩ := split_at (hd.comma a ha) (hd.comma a' ha') h
    rw [hd.inj a a' ha ha' h1, hd.inj b b' hb hb' (List.append_cancel_right h2)]
  · exfalso
    simp only [List.append_assoc, List.cons_append, List.nil_append, List.cons.injEq, true_and] at h
    have h : dbg a ++ ',' :: (dbg b ++ [']']) = dbg a' ++ ',' :: ['+', 'o', 'o', '['] := h
    obtain ⟨-, h2⟩ := split_at (hd.comma a ha) (hd.comma a' ha') h
    have := congrArg List.getLast? h2
    simp at this
  · exfalso
    simp only [List.append_assoc, List.cons_append, List.nil_append, List.cons.injEq, true_and] at h
    have h : dbg a ++ ',' :: ['+', 'o', 'o', '['] = dbg a' ++ ',' :: (dbg b' ++ [']']) := h
    obtain ⟨-, h2⟩ := split_at (hd.comma a ha) (hd.comma a' ha') h
    have := congrArg List.getLast? h2
    simp at this
  · have := hd.inj a a' ha ha' (List.append_cancel_left (List.append_cancel_right h))
    rw [this]
  · have := hd.inj b b' hb hb' (List.append_cancel_left (List.append_cancel_right h))
    rw [this]
  · exfalso
    have := congrArg List.getLast? h
    rw [List.getLast?_concat] at this
    exact absurd this (by decide)
  · exfalso
    have := congrArg List.getLast? h
    rw [List.getLast?_concat] at this
    exact absurd this (by decide)

theorem debugSet_cons (dbg : Int → List Char) (x : Iv) (xs : List Iv) :
    debugSet dbg (x :: xs) = debugIv dbg x ++ xs.flatMap (fun i => 'U' :: debugIv dbg i) := by
  have key : ∀ (l : List Iv) (s : List Char), l.foldl (fun s i => s ++ ['U'] ++ debugIv dbg i) s =
      s ++ l.flatMap (fun i => 'U' :: debugIv dbg i) := by
    intro l
    induction l with
    | nil => simp
    | cons y l ih => intro s; rw [List.foldl_cons, ih]; simp
  exact key xs _

theorem split_parts {a a' : List Char} (ha : 'U' ∉ a) (ha' : 'U' ∉ a') {f : Iv → List Char} {l l' : List Iv}
    (h : a ++ l.flatMap (fun i => 'U' :: f i) = a' ++ l'.flatMap (fun i => 'U' :: f i)) :
    a = a' ∧ l.flatMap (fun i => 'U' :: f i) = l'.flatMap (fun i => 'U' :: f i) := by
  cases l with
  | nil =>
    cases l' with
    | nil => simp at h; exact ⟨h, rfl⟩
    | cons y l' =>
      exfalso
      simp at h
      exact ha (by rw [h]; simp)
  | cons x l =>
    cases l' with
    | nil =>
      exfalso
      simp at h
      exact ha' (by rw [← h]; simp)
    | cons y l' =>
      simp only [List.flatMap_cons, List.cons_append] at h ⊢
      obtain ⟨h1, h2⟩ := split_at ha ha' h
      exact ⟨h1, by rw [h2]⟩

theorem parts_inj {dbg : Int → List Char} (hd : DebugOk dbg) : ∀ {l l' : List Iv}, (∀ i ∈ l, WF i) → (∀ i ∈ l', WF i) →
    l.flatMap (fun i => 'U' :: debugIv dbg i) = l'.flatMap (fun i => 'U' :: debugIv dbg i) → l = l'
  | [], [], _, _, _ => rfl
  | [], y :: l', _, _, h => by simp at h
  | x :: l, [], _, _, h => by simp at h
  | x :: l, y :: l', h1, h2, h => by
    simp only [List.flatMap_cons, List.cons_append, List.cons.injEq, true_and] at h
    have wx := h1 x (by simp)
    have wy := h2 y (by simp)
    obtain ⟨e1, e2⟩ := split_parts (debugIv_u hd wx) (debugIv_u hd wy) h
    rw [debugIv_inj hd wx wy e1, parts_inj hd (fun i hi => h1 i (by simp [hi])) (fun i hi => h2 i (by simp [hi])) e2]

theorem debugSet_inj {dbg : Int → List Char} (hd : DebugOk dbg) {s r : List Iv} (hs : ∀ i ∈ s, WF i) (hr : ∀ i ∈ r, WF i)
    (h : debugSet dbg s = debugSet dbg r) : s = r := by
  have key : ∀ (x : Iv) (l : List Iv), (∀ i ∈ x :: l, WF i) → debugSet dbg (x :: l) ≠ "{}".toList := by
    intro x l hl e
    rw [debugSet_cons] at e
    have e : debugIv dbg x ++ l.flatMap (fun i => 'U' :: debugIv dbg i) =
        "{}".toList ++ ([] : List Iv).flatMap (fun i => 'U' :: debugIv dbg i) := by rw [e]; simp
    exact debugIv_empty hd (hl x (by simp)) (split_parts (debugIv_u hd (hl x (by simp))) (by decide) e).1
  cases s with
  | nil =>
    cases r with
    | nil => rfl
    | cons y r => exact absurd h.symm (key y r hr)
  | cons x s =>
    cases r with
    | nil => exact absurd h (key x s hs)
    | cons y r =>
      rw [debugSet_cons, debugSet_cons] at h
      have wx := hs x (by simp)
      have wy := hr y (by simp)
      obtain ⟨e1, e2⟩ := split_parts (debugIv_u hd wx) (debugIv_u hd wy) h
      rw [debugIv_inj hd wx wy e1, parts_inj hd (fun i hi => hs i (by simp [hi])) (fun i hi => hr i (by simp [hi])) e2]

/-! ## The text of a duration determines the counts -/

theorem digits_prefix : ∀ {a b n m : List Char}, (∀ c ∈ a, c.isDigit) → (∀ c ∈ b, c.isDigit) →
    (∀ c ∈ n, ¬ c.isDigit) → (∀ c ∈ m, ¬ c.isDigit) → a ++ n = b ++ m → a = b ∧ n = m
  | [], [], _, _, _, _, _, _, h => ⟨rfl, h⟩
  | [], d :: b, n, m, _, hb, hn, _, h => by
    exfalso
    have h : n = d :: (b ++ m) := h
    exact hn d (by rw [h]; simp) (hb d (by simp))
  | d :: a, [], n, m, ha, _, _, hm, h => by
    exfalso
    have h : d :: (a ++ n) = m := h
    exact hm d (by rw [← h]; simp) (ha d (by simp))
  | d :: a, e :: b, n, m, ha, hb, hn, hm, h => by
    simp only [List.cons_append, List.cons.injEq] at h
    have := digits_prefix (fun c hc => ha c (by simp [hc])) (fun c hc => hb c (by simp [hc])) hn hm h.2
    exact ⟨by rw [h.1, this.1], this.2⟩

theorem unit_name : ∀ u ∈ timeUnits, ' ' ∉ u.name.toList ∧ ∀ c ∈ u.name.toList, ¬ c.isDigit := by decide

theorem unit_inj : ∀ u ∈ timeUnits, ∀ v ∈ timeUnits, u.name.toList = v.name.toList → u = v := by decide

theorem spaced_inj : ∀ {l m : Parts}, (∀ p ∈ l, p.2 ∈ timeUnits) → (∀ p ∈ m, p.2 ∈ timeUnits) → spaced l = spaced m → l = m
  | [], [], _, _, _ => rfl
  | [], q :: m, _, _, h => by simp [spaced] at h
  | p :: l, [], _, _, h => by simp [spaced] at h
  | p :: l, q :: m, hl, hm, h => by
    have up := unit_name p.2 (hl p (by simp))
    have uq := unit_name q.2 (hm q (by simp))
    have sp : ∀ (n : Nat), ' ' ∉ Nat.toDigits 10 n := fun n hc => absurd (digit_char hc) (by decide)
    have h : (Nat.toDigits 10 p.1 ++ p.2.name.toList) ++ ' ' :: spaced l = (Nat.toDigits 10 q.1 ++ q.2.name.toList) ++ ' ' :: spaced m := by
      simpa [spaced] using h
    obtain ⟨h1, h2⟩ := split_at (by simp [sp, up.1]) (by simp [sp, uq.1]) h
    obtain ⟨h3, h4⟩ := digits_prefix (fun c hc => digit_char hc) (fun c hc => digit_char hc) up.2 uq.2 h1
    rw [spaced_inj (fun r hr => hl r (by simp [hr])) (fun r hr => hm r (by simp [hr])) h2,
      show p = q from Prod.ext (toDigits_inj h3) (unit_inj _ (hl p (by simp)) _ (hm q (by simp)) h4)]

theorem partsText_inj {l m : Parts} (hl : l ≠ []) (hm : m ≠ []) (ol : Ordered l) (om : Ordered m) (h : partsText l = partsText m) :
    l = m := by
  have key : ∀ {l : Parts}, Ordered l → ∀ p ∈ l, p.2 ∈ timeUnits :=
    fun o p hp => o.2.subset (List.mem_map.2 ⟨p, hp, rfl⟩)
  exact spaced_inj (key ol) (key om) (by rw [spaced_text l hl, spaced_text m hm, h])

/-! ## Display -/

/-- the words for a positive finite duration -/
theorem format_words {t : Int} (h0 : 0 < t) (h1 : t < INF) : ∃ parts ns, subsecNanos t = .ok ((ns : Nat) : Int) ∧ ns ≤ 999999999 ∧
    formatDuration t = .ok (partsText parts) ∧ parts ≠ [] ∧ Ordered parts ∧
    (partsNanos parts : Int) = asSecs t * 1000000000 + ns ∧
    (ns ≠ 1000000 → ns % 1000000 ≠ 1000 → Reduced parts) := by
  obtain ⟨ns, us, ms, hns, -, -, -, -, hn0, hn1, -, -, -, -⟩ := C08_decompose t
  obtain ⟨k, rfl⟩ := Int.eq_ofNat_of_zero_le hn0
  have hk : k ≤ 999999999 := by omega
  have hne : partsOf t k ≠ [] := by
    intro e
    have h2 := partsOf_nanos (t := t) (by omega) k
    rw [e] at h2
    have h3 : asSecs t * 1000000000 + (k : Int) = 0 := by rw [← h2]; rfl
    have hs : 0 ≤ asSecs t := by unfold asSecs; ticks
    have h4 := subsecNanos_eq t
    rw [hns] at h4
    injection h4 with h4
    have h5 : asSecs t = 0 := by omega
    have h6 : k = 0 := by omega
    have h7 : t = t % TICKS := by unfold asSecs at h5; ticks
    have h8 : 0 < t % TICKS := by omega
    ticks
  have hne2 : spaced (partsOf t k) ≠ [] := by
    rw [spaced_text _ hne]; simp
  refine ⟨partsOf t k, k, hns, hk, ?_, hne, partsOf_ordered t k, partsOf_nanos (by omega) k, partsOf_reduced (by omega) hk⟩
  rw [formatDuration_eq h0 h1 hns hk]
  rw [if_neg (by rw [List.isEmpty_iff]; exact hne2), spaced_text _ hne, List.dropLast_concat]

theorem displayTv_pos {t : Int} (h0 : 0 < t) (h1 : t < INF) : displayTv t = formatDuration t := by
  unfold displayTv isFutureInfinite
  rw [if_pos (by omega)]
  have : (t == INF) = false := by simp; omega
  rw [this]
  rfl

theorem displayTv_neg {t : Int} (h0 : -INF < t) (h1 : t < 0) : displayTv t = (displayTv (-t)).map ("- ".toList ++ ·) := by
  rw [displayTv_pos (t := -t) (by omega) (by omega)]
  unfold displayTv isPastInfinite
  rw [if_neg (by omega)]
  have : (t == -INF) = false := by simp; omega
  have hc : chk64 (-t) = .ok (-t) := by unfold chk64; rw [if_pos]; ticks
  rw [this, hc]
  show (do return "- ".toList ++ (← formatDuration (-t))) = _
  cases formatDuration (-t) <;> rfl

theorem displayTv_total (t : Int) (h : -INF ≤ t ∧ t ≤ INF) : ∃ s, displayTv t = .ok s := by
  have hp : ∀ t, 0 < t → t < INF → ∃ s, displayTv t = .ok s := by
    intro t h0 h1
    obtain ⟨p, ns, -, -, h, -⟩ := format_words h0 h1
    exact ⟨_, by rw [displayTv_pos h0 h1, h]⟩
  by_cases c1 : t = INF
  · exact ⟨_, by rw [c1]; rfl⟩
  by_cases c2 : t = -INF
  · exact ⟨_, by rw [c2]; rfl⟩
  by_cases c3 : t = 0
  · exact ⟨['0'], by rw [c3]; decide +kernel⟩
  by_cases c4 : 0 < t
  · exact hp t c4 (by omega)
  · obtain ⟨s, hs⟩ := hp (-t) (by omega) (by omega)
    exact ⟨_, by rw [displayTv_neg (by omega) (by omega), hs]; rfl⟩

theorem formatTimepoint_eq {t : Int} (h : Date t) : formatTimepoint t = displayTv t := by
  obtain ⟨h1, h2⟩ := h
  have e1 : (t == INF) = false := by simp; omega
  have e2 : (t == -INF) = false := by simp; omega
  unfold formatTimepoint displayTv isPositive isFutureInfinite isPastInfinite
  rw [e1, e2]
  by_cases c : t ≥ 0 <;> simp [c]

/-- the shapes of the displayed text of an interval, given the text of dates -/
theorem displayIv_cases {i : Iv} (h : WF i) :
    (∃ a, i = ⟨a, a⟩ ∧ Date a ∧ ∀ disp, displayIv disp i = do return ['{'] ++ (← disp a) ++ ['}']) ∨
    (∃ a b, i = ⟨a, b⟩ ∧ Date a ∧ Date b ∧ a < b ∧
      ∀ disp, displayIv disp i = do return ['['] ++ (← disp a) ++ [','] ++ (← disp b) ++ [']']) ∨
    (∃ a, i = ⟨a, INF⟩ ∧ Date a ∧ ∀ disp, displayIv disp i = do return ['['] ++ (← disp a) ++ ",+oo[".toList) ∨
    (∃ b, i = ⟨-INF, b⟩ ∧ Date b ∧ ∀ disp, displayIv disp i = do return "]-oo,".toList ++ (← disp b) ++ [']']) ∨
    (i = ⟨-INF, INF⟩ ∧ ∀ disp, displayIv disp i = .ok "]-oo,+oo[".toList) := by
  obtain ⟨h1, h2, h3, h4, h5⟩ := h
  obtain ⟨a, b⟩ := i
  simp only at h1 h2 h3 h4 h5
  have hemp : (a == INF) = false := by simp; omega
  unfold displayIv Iv.isEmpty Iv.isSingleton Iv.isLowBounded Iv.isUpBounded isPastInfinite isFutureInfinite
  rw [hemp]
  by_cases c1 : a = -INF
  · by_cases c2 : b = INF
    · subst c1 c2
      exact Or.inr (Or.inr (Or.inr (Or.inr ⟨rfl, fun _ => rfl⟩)))
    · refine Or.inr (Or.inr (Or.inr (Or.inl ⟨b, by rw [c1], ⟨h5, by omega⟩, fun disp => ?_⟩)))
      have c3 : ¬ (-INF = b) := by omega
      simp [c1, c2, c3]
  · by_cases c2 : b = INF
    · refine Or.inr (Or.inr (Or.inl ⟨a, by rw [c2], ⟨by omega, h4⟩, fun disp => ?_⟩))
      have c3 : ¬ (a = INF) := by omega
      simp [c1, c2, c3]
    · by_cases c3 : a = b
      · refine Or.inl ⟨a, by rw [c3], ⟨by omega, h4⟩, fun disp => ?_⟩
        subst c3
        simp
      · refine Or.inr (Or.inl ⟨a, b, rfl, ⟨by omega, h4⟩, ⟨h5, by omega⟩, by omega, fun disp => ?_⟩)
        simp [c1, c2, c3]

theorem formatTimeslot_gen {i : Iv} (h : WF i) (fp : Int → Res (List Char)) : formatTimeslot fp i = displayIv fp i := by
  have hne : i.isEmpty = false := by
    unfold Iv.isEmpty isFutureInfinite
    have := h.lo_lt
    simp; omega
  unfold formatTimeslot displayIv
  rw [hne]
  rfl

theorem displayIv_congr {i : Iv} (h : WF i) {f g : Int → Res (List Char)} (hfg : ∀ t, Date t → f t = g t) :
    displayIv f i = displayIv g i := by
  rcases displayIv_cases h with ⟨a, -, ha, e⟩ | ⟨a, b, -, ha, hb, -, e⟩ | ⟨a, -, ha, e⟩ | ⟨b, -, hb, e⟩ | ⟨-, e⟩
  · rw [e, e, hfg a ha]
  · rw [e, e, hfg a ha, hfg b hb]
  · rw [e, e, hfg a ha]
  · rw [e, e, hfg b hb]
  · rw [e, e]

theorem displayTv_date {t : Int} (ht : Date t) : ∃ s, displayTv t = .ok s :=
  displayTv_total t ⟨by have := ht.1; omega, by have := ht.2; omega⟩

/-- the text of an interval, given that the text of a date is always defined -/
theorem displayIv_texts {disp : Int → Res (List Char)} (d : ∀ t, Date t → ∃ s, disp t = .ok s) {i : Iv} (h : WF i) :
    (∃ a s, i = ⟨a, a⟩ ∧ disp a = .ok s ∧ displayIv disp i = .ok ("{".toList ++ s ++ "}".toList)) ∨
    (∃ a b s r, i = ⟨a, b⟩ ∧ -INF < a ∧ a < b ∧ b < INF ∧ disp a = .ok s ∧ disp b = .ok r ∧
      displayIv disp i = .ok ("[".toList ++ s ++ ",".toList ++ r ++ "]".toList)) ∨
    (∃ a s, i = ⟨a, INF⟩ ∧ -INF < a ∧ disp a = .ok s ∧ displayIv disp i = .ok ("[".toList ++ s ++ ",+oo[".toList)) ∨
    (∃ b s, i = ⟨-INF, b⟩ ∧ b < INF ∧ disp b = .ok s ∧ displayIv disp i = .ok ("]-oo,".toList ++ s ++ "]".toList)) ∨
    (i = ⟨-INF, INF⟩ ∧ displayIv disp i = .ok "]-oo,+oo[".toList) := by
  rcases displayIv_cases h with ⟨a, hi, ha, e⟩ | ⟨a, b, hi, ha, hb, hab, e⟩ | ⟨a, hi, ha, e⟩ | ⟨b, hi, hb, e⟩ | ⟨hi, e⟩
  · obtain ⟨s, hs⟩ := d a ha; exact Or.inl ⟨a, s, hi, hs, by rw [e, hs]; rfl⟩
  · obtain ⟨s, hs⟩ := d a ha; obtain ⟨r, hr⟩ := d b hb
    exact Or.inr (Or.inl ⟨a, b, s, r, hi, ha.1, hab, hb.2, hs, hr, by rw [e, hs, hr]; rfl⟩)
  · obtain ⟨s, hs⟩ := d a ha; exact Or.inr (Or.inr (Or.inl ⟨a, s, hi, ha.1, hs, by rw [e, hs]; rfl⟩))
  · obtain ⟨s, hs⟩ := d b hb; exact Or.inr (Or.inr (Or.inr (Or.inl ⟨b, s, hi, hb.2, hs, by rw [e, hs]; rfl⟩)))
  · exact Or.inr (Or.inr (Or.inr (Or.inr ⟨hi, e _⟩)))

theorem displayIv_total {disp : Int → Res (List Char)} (d : ∀ t, Date t → ∃ s, disp t = .ok s) {i : Iv} (h : WF i) :
    ∃ s, displayIv disp i = .ok s := by
  rcases displayIv_texts d h with ⟨_, _, _, _, e⟩ | ⟨_, _, _, _, _, _, _, _, _, _, e⟩ | ⟨_, _, _, _, _, e⟩ | ⟨_, _, _, _, _, e⟩ | ⟨_, e⟩
  all_goals exact ⟨_, e⟩

theorem foldlM_texts (f : Iv → Res (List Char)) : ∀ (l : List Iv) (s : List Char) (ts : List (List Char)), l.mapM f = .ok ts →
    l.foldlM (fun s i => do return s ++ ['U'] ++ (← f i)) s = .ok (s ++ ts.flatMap ('U' :: ·))
  | [], s, ts, h => by
    injection h with h
    subst h
    simp
    rfl
  | x :: l, s, ts, h => by
    rw [List.mapM_cons] at h
    cases hx : f x with
    | error e => rw [hx] at h; cases h
    | ok t =>
      rw [hx] at h
      cases hl : l.mapM f with
      | error e => rw [hl] at h; cases h
      | ok ts' =>
        rw [hl] at h
        have h : Except.ok (t :: ts') = Except.ok ts := h
        injection h with h
        subst h
        rw [List.foldlM_cons, hx]
        show List.foldlM (fun s i => do return s ++ ['U'] ++ (← f i)) (s ++ ['U'] ++ t) l = _
        rw [foldlM_texts f l _ ts' hl]
        simp

theorem intercalate_u (t : List Char) (ts : List (List Char)) : ['U'].intercalate (t :: ts) = t ++ ts.flatMap ('U' :: ·) := by
  induction ts generalizing t with
  | nil => simp
  | cons u ts ih => rw [List.intercalate_cons_cons, ih]; simp

theorem mapM_total {f : Iv → Res (List Char)} : ∀ {l : List Iv}, (∀ i ∈ l, ∃ s, f i = .ok s) → ∃ ts, l.mapM f = .ok ts
  | [], _ => ⟨[], rfl⟩
  | x :: l, h => by
    obtain ⟨s, hs⟩ := h x (by simp)
    obtain ⟨ts, ht⟩ := mapM_total (f := f) (l := l) (fun i hi => h i (by simp [hi]))
    exact ⟨s :: ts, by rw [List.mapM_cons, hs, ht]; rfl⟩

theorem displaySet_words {disp : Int → Res (List Char)} (d : ∀ t, Date t → ∃ s, disp t = .ok s) {s : List Iv} (hne : s ≠ []) (hs : ∀ i ∈ s, WF i) : ∃ texts, s.mapM (displayIv disp) = .ok texts ∧
    displaySet disp s = .ok (['U'].intercalate texts) := by
  obtain ⟨ts, ht⟩ := mapM_total (fun i hi => displayIv_total d (hs i hi))
  refine ⟨ts, ht, ?_⟩
  cases s with
  | nil => exact absurd rfl hne
  | cons x l =>
    obtain ⟨t, hx⟩ := displayIv_total d (hs x (by simp))
    obtain ⟨ts', hl⟩ := mapM_total (l := l) (fun i hi => displayIv_total d (hs i (by simp [hi])))
    rw [List.mapM_cons, hx, hl] at ht
    have ht : Except.ok (t :: ts') = Except.ok ts := ht
    injection ht with ht
    subst ht
    unfold displaySet
    simp only []
    rw [hx]
    show List.foldlM (fun s i => do return s ++ ['U'] ++ (← displayIv disp i)) t l = _
    rw [foldlM_texts _ l t ts' hl, intercalate_u]

theorem foldlM_congr' {f g : List Char → Iv → Res (List Char)} : ∀ {l : List Iv} (s : List Char), (∀ i ∈ l, ∀ s, f s i = g s i) →
    l.foldlM f s = l.foldlM g s
  | [], _, _ => rfl
  | x :: l, s, h => by
    rw [List.foldlM_cons, List.foldlM_cons, h x (by simp)]
    congr
    funext r
    exact foldlM_congr' r (fun i hi => h i (by simp [hi]))

theorem formatTimeset_eq {fp disp : Int → Res (List Char)} (hf : ∀ t, Date t → fp t = disp t) {s : List Iv} (hne : s ≠ [])
    (hs : ∀ i ∈ s, WF i) : formatTimeset fp s = displaySet disp s := by
  have e : ∀ i, WF i → formatTimeslot fp i = displayIv disp i := fun i h => by
    rw [formatTimeslot_gen h, displayIv_congr h hf]
  cases s with
  | nil => exact absurd rfl hne
  | cons x l =>
    unfold formatTimeset displaySet
    simp only []
    rw [e x (hs x (by simp))]
    congr
    funext r
    exact foldlM_congr' r (fun i hi s => by rw [e i (hs i (by simp [hi]))])

/-- equal nanoseconds: at most one tick apart -/
theorem nanos_close {a b : Int} {m n : Nat} (hm : m ≤ 999999999) (hn : n ≤ 999999999) (ha : subsecNanos a = .ok (m : Int))
    (hb : subsecNanos b = .ok (n : Int)) (h : asSecs a * 1000000000 + m = asSecs b * 1000000000 + n) : a - b ≤ 1 ∧ b - a ≤ 1 := by
  rw [subsecNanos_eq] at ha hb
  injection ha with ha
  injection hb with hb
  have h1 : asSecs a = asSecs b := by omega
  have h2 : m = n := by omega
  unfold asSecs at h1
  subst h2
  clear h
  ticks

/-- the first character of the text of a positive duration is a digit, and the text is not `0` -/
theorem partsText_head {l : Parts} (hne : l ≠ []) (ho : Ordered l) : (∃ c r, partsText l = c :: r ∧ c.isDigit) ∧ partsText l ≠ ['0'] := by
  obtain ⟨p, l, rfl⟩ := List.exists_cons_of_ne_nil hne
  have hsp := spaced_text (p :: l) hne
  have e : spaced (p :: l) = Nat.toDigits 10 p.1 ++ (p.2.name.toList ++ ' ' :: spaced l) := by simp [spaced]
  obtain ⟨c, r, hc⟩ := List.exists_cons_of_ne_nil (Nat.toDigits_ne_nil (n := p.1) (b := 10))
  have hd : c.isDigit := digit_char (n := p.1) (by rw [hc]; simp)
  rw [e, hc] at hsp
  constructor
  · cases ht : partsText (p :: l) with
    | nil =>
      rw [ht] at hsp
      have : c = ' ' := (List.cons.inj hsp).1
      exact absurd hd (by rw [this]; decide)
    | cons d q =>
      rw [ht] at hsp
      exact ⟨d, q, rfl, by rw [← (List.cons.inj hsp).1]; exact hd⟩
  · intro h0
    rw [h0] at hsp
    have h1 := (List.cons.inj hsp).2
    have hu : p.2 ∈ timeUnits := ho.2.subset (List.mem_map.2 ⟨p, by simp, rfl⟩)
    have hun := unit_name p.2 hu
    have hpne : ∀ u ∈ timeUnits, u.name.toList ≠ [] := by decide
    have hl := congrArg List.length h1
    obtain ⟨x, y, hxy⟩ := List.exists_cons_of_ne_nil (hpne p.2 hu)
    rw [hxy] at hl
    simp at hl
    omega

theorem display_pos {t : Int} (h0 : 0 < t) (h1 : t < INF) : ∃ parts ns, subsecNanos t = .ok ((ns : Nat) : Int) ∧ ns ≤ 999999999 ∧
    displayTv t = .ok (partsText parts) ∧ parts ≠ [] ∧ Ordered parts ∧ (partsNanos parts : Int) = asSecs t * 1000000000 + ns := by
  obtain ⟨parts, ns, a, b, c, d, e, f, -⟩ := format_words h0 h1
  exact ⟨parts, ns, a, b, by rw [displayTv_pos h0 h1]; exact c, d, e, f⟩

/-- what the text of a duration looks like -/
inductive Shown : Int → List Char → Prop
  | zero : Shown 0 ['0']
  | top : Shown INF ['+', 'o', 'o']
  | bot : Shown (-INF) ['-', 'o', 'o']
  | pos {t s} : 0 < t → t < INF → displayTv t = .ok s → (∃ c r, s = c :: r ∧ c.isDigit) → s ≠ ['0'] → Shown t s
  | neg {t s} : 0 < t → t < INF → displayTv t = .ok s → Shown (-t) ('-' :: ' ' :: s)

theorem shown {t : Int} (h : -INF ≤ t ∧ t ≤ INF) {s : List Char} (hs : displayTv t = .ok s) : Shown t s := by
  by_cases c1 : t = INF
  · subst c1; injection hs with hs; subst hs; exact .top
  by_cases c2 : t = -INF
  · subst c2; injection hs with hs; subst hs; exact .bot
  by_cases c3 : t = 0
  · subst c3
    have : displayTv 0 = .ok ['0'] := by decide +kernel
    rw [this] at hs
    injection hs with hs; subst hs; exact .zero
  by_cases c4 : 0 < t
  · obtain ⟨p, ns, -, -, e, hne, ho, -⟩ := display_pos c4 (by omega)
    rw [e] at hs
    injection hs with hs
    subst hs
    exact .pos c4 (by omega) e (partsText_head hne ho).1 (partsText_head hne ho).2
  · have := displayTv_neg (t := t) (by omega) (by omega)
    obtain ⟨p, ns, -, -, e, -⟩ := display_pos (t := -t) (by omega) (by omega)
    rw [this, e] at hs
    injection hs with hs
    subst hs
    have hh := Shown.neg (t := -t) (by omega) (by omega) e
    rw [Int.neg_neg] at hh
    exact hh

theorem pos_close {a b : Int} (ha0 : 0 < a) (ha1 : a < INF) (hb0 : 0 < b) (hb1 : b < INF) {s : List Char}
    (h1 : displayTv a = .ok s) (h2 : displayTv b = .ok s) : a - b ≤ 1 ∧ b - a ≤ 1 := by
  obtain ⟨p, m, x1, x2, x3, x4, x5, x6⟩ := display_pos ha0 ha1
  obtain ⟨q, n, y1, y2, y3, y4, y5, y6⟩ := display_pos hb0 hb1
  rw [x3] at h1
  rw [y3, ← h1] at h2
  injection h2 with h2
  have := partsText_inj x4 y4 x5 y5 h2.symm
  subst this
  exact nanos_close x2 y2 x1 y1 (by rw [← x6, ← y6])

theorem display_close {a b : Int} (ha : -INF ≤ a ∧ a ≤ INF) (hb : -INF ≤ b ∧ b ≤ INF) {s : List Char}
    (h1 : displayTv a = .ok s) (h2 : displayTv b = .ok s) : a - b ≤ 1 ∧ b - a ≤ 1 := by
  have dg : ∀ {c : Char} {r l : List Char} {d : Char}, (∃ c r, d :: l = c :: r ∧ c.isDigit) → d.isDigit := by
    intro c r l d h
    obtain ⟨c, r, e, h⟩ := h
    rw [(List.cons.inj e).1]; exact h
  cases shown ha h1 with
  | zero =>
    cases shown hb h2 with
    | zero => omega
    | pos _ _ _ _ h => exact absurd rfl h
  | top =>
    generalize hx : ['+', 'o', 'o'] = x at h2
    cases shown hb h2 with
    | top => omega
    | pos _ _ _ h => subst hx; obtain ⟨c, r, e, h⟩ := h; rw [← (List.cons.inj e).1] at h; exact absurd h (by decide)
    | zero => cases hx
    | bot => exact absurd hx (by decide)
    | neg => exact absurd (List.cons.inj hx).1 (by decide)
  | bot =>
    generalize hx : ['-', 'o', 'o'] = x at h2
    cases shown hb h2 with
    | bot => omega
    | pos _ _ _ h => subst hx; obtain ⟨c, r, e, h⟩ := h; rw [← (List.cons.inj e).1] at h; exact absurd h (by decide)
    | zero => exact absurd hx (by decide)
    | top => exact absurd hx (by decide)
    | neg => exact absurd (List.cons.inj (List.cons.inj hx).2).1 (by decide)
  | pos p0 p1 p2 p3 p4 =>
    have hb' := shown hb h2
    generalize hx : s = x at hb'
    cases hb' with
    | zero => exact absurd hx p4
    | top => subst hx; obtain ⟨c, r, e, h⟩ := p3; rw [← (List.cons.inj e).1] at h; exact absurd h (by decide)
    | bot => subst hx; obtain ⟨c, r, e, h⟩ := p3; rw [← (List.cons.inj e).1] at h; exact absurd h (by decide)
    | pos q0 q1 q2 => subst hx; exact pos_close p0 p1 q0 q1 p2 q2
    | neg => subst hx; obtain ⟨c, r, e, h⟩ := p3; rw [← (List.cons.inj e).1] at h; exact absurd h (by decide)
  | neg p0 p1 p2 =>
    rename_i t s
    have hb' := shown hb h2
    generalize hx : '-' :: ' ' :: s = x at hb'
    cases hb' with
    | zero => exact absurd (List.cons.inj hx).1 (by decide)
    | top => exact absurd (List.cons.inj hx).1 (by decide)
    | bot => exact absurd (List.cons.inj (List.cons.inj hx).2).1 (by decide)
    | pos _ _ _ h => subst hx; obtain ⟨c, r, e, h⟩ := h; rw [← (List.cons.inj e).1] at h; exact absurd h (by decide)
    | neg q0 q1 q2 =>
      have hx := (List.cons.inj (List.cons.inj hx).2).2
      subst hx
      have := pos_close p0 p1 q0 q1 p2 q2
      omega

theorem debug_values {a b : Int} (ha : -INF ≤ a ∧ a ≤ INF) (hb : -INF ≤ b ∧ b ≤ INF) :
    (debugTv a = debugTv b → a = b) ∧ (debugTs a = debugTs b → a = b) := by
  have key : debugTv a = debugTv b → a = b := by
    intro h
    have top : debugTv INF = ['+', 'o', 'o'] := by decide
    have bot : debugTv (-INF) = ['-', 'o', 'o'] := by decide
    have no : ∀ x, Date x → 'o' ∉ debugTv x := by
      intro x hx hm
      rw [debugTv_eq hx] at hm
      exact absurd (intText_chars hm) (by decide)
    have case : ∀ x, -INF ≤ x ∧ x ≤ INF → x = INF ∨ x = -INF ∨ Date x := by
      intro x hx; unfold Date; omega
    rcases case a ha with rfl | rfl | da <;> rcases case b hb with rfl | rfl | db
    · rfl
    · rw [top, bot] at h; exact absurd h (by decide)
    · exact absurd (by rw [← h, top]; decide) (no b db)
    · rw [top, bot] at h; exact absurd h (by decide)
    · rfl
    · exact absurd (by rw [← h, bot]; decide) (no b db)
    · exact absurd (by rw [h, top]; decide) (no a da)
    · exact absurd (by rw [h, bot]; decide) (no a da)
    · exact debugTv_ok.inj a b da db h
  exact ⟨key, fun h => key (List.append_cancel_left h)⟩

theorem debug_shape {s : List Iv} (hne : s ≠ []) (hs : ∀ i ∈ s, WF i) :
    debugSet debugTv s = ['U'].intercalate (s.map (debugIv debugTv)) ∧
    (∀ a, ⟨a, a⟩ ∈ s → debugIv debugTv ⟨a, a⟩ = ['{'] ++ intText a ++ ['}']) ∧
    (∀ a b, -INF < a → a < b → b < INF → ⟨a, b⟩ ∈ s → debugIv debugTv ⟨a, b⟩ = ['['] ++ intText a ++ [','] ++ intText b ++ [']']) ∧
    (∀ a, -INF < a → ⟨a, INF⟩ ∈ s → debugIv debugTv ⟨a, INF⟩ = ['['] ++ intText a ++ ",+oo[".toList) ∧
    (∀ b, b < INF → ⟨-INF, b⟩ ∈ s → debugIv debugTv ⟨-INF, b⟩ = "]-oo,".toList ++ intText b ++ [']']) ∧
    debugIv debugTv ⟨-INF, INF⟩ = "]-oo,+oo[".toList := by
  have ne : ∀ {x y : Int}, x ≠ y → (x == y) = false := fun h => by simp [h]
  refine ⟨?_, ?_, ?_, ?_, ?_, by decide⟩
  · obtain ⟨x, l, rfl⟩ := List.exists_cons_of_ne_nil hne
    rw [debugSet_cons, List.map_cons, intercalate_u, List.flatMap_map]
  · intro a ha
    obtain ⟨h1, h2, h3, h4, h5⟩ := hs _ ha
    simp only at h1 h2 h3 h4 h5
    rw [← debugTv_eq ⟨h5, h4⟩]
    unfold debugIv Iv.isLowBounded Iv.isUpBounded isPastInfinite isFutureInfinite
    simp only [ne (show a ≠ -INF by omega), ne (show a ≠ INF by omega)]
    simp
  · intro a b h1 h2 h3 _
    rw [← debugTv_eq ⟨h1, by omega⟩, ← debugTv_eq ⟨by omega, h3⟩]
    unfold debugIv Iv.isLowBounded Iv.isUpBounded isPastInfinite isFutureInfinite
    simp only [ne (show a ≠ -INF by omega), ne (show b ≠ INF by omega), ne (show a ≠ b by omega)]
    simp
  · intro a h1 h2
    obtain ⟨x1, x2, x3, x4, x5⟩ := hs _ h2
    rw [← debugTv_eq ⟨h1, x4⟩]
    unfold debugIv Iv.isLowBounded Iv.isUpBounded isPastInfinite isFutureInfinite
    simp only [ne (show a ≠ -INF by omega)]
    simp
  · intro b h1 h2
    obtain ⟨x1, x2, x3, x4, x5⟩ := hs _ h2
    rw [← debugTv_eq ⟨x5, h1⟩]
    unfold debugIv Iv.isLowBounded Iv.isUpBounded isPastInfinite isFutureInfinite
    simp only [ne (show b ≠ INF by omega)]
    simp

end Chrono
