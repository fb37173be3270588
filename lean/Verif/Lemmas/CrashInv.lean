import Verif.Lemmas.Crash

/-!
# Invariants of the contents left by interrupted operations
-/

set_option linter.unusedSimpArgs false

namespace Chrono
open Spec

/-! ## Deductions -/

theorem relaxT_ded {g x : Graph} (hv : Valid g) (d : Ded g x) {i j : Nat} (hi : i < g.size) (hj : j < g.size) {v : Int}
    (h : Lb g i j v) : RSafe (Ded g) (Ded g) (NoSol g) (x.relaxT i j v) := by
  have s := relax_ded hv d hi hj h
  refine ⟨?_, by rw [Graph.relaxT_res]; exact s⟩
  have hi' : i < x.size := by rw [d.frame.shape.size]; exact hi
  have hj' : j < x.size := by rw [d.frame.shape.size]; exact hj
  unfold Graph.relax at s
  unfold Graph.relaxT
  rw [Run.bind_def]
  unfold Run.bind
  rw [lower_eq (d.frame.valid hv) hi' hj'] at s ⊢
  rw [ok_bind] at s
  simp only [Run.lift]
  intro y hy
  rw [List.nil_append] at hy
  split at hy
  · next c =>
    rw [if_pos c] at s
    cases e : x.setLower i j v with
    | error e' => rw [e] at hy; cases hy
    | ok z =>
      rw [e] at hy s
      cases List.mem_singleton.1 hy
      cases s with
      | ok h => exact h
  · cases hy

theorem plbT_ded {g x : Graph} (hv : Valid g) (d : Ded g x) {io jo : Nat} (hi : io < g.size) (hj : jo < g.size) :
    RSafe (Ded g) (Ded g) (NoSol g) (x.propagateLowerBoundT io jo) := by
  unfold Graph.propagateLowerBoundT
  refine (RSafe.lift (lower_ded hv d hi hj)).bind (fun v lv => ?_)
  refine RSafe.bind (P := Ded g) ?_ (fun y dy => ?_)
  · refine RSafe.foldlM d (fun z b hb dz => ?_)
    have hb' : b < g.size := by rw [← d.frame.shape.size]; exact List.mem_range.1 hb
    refine (RSafe.lift (lower_ded hv dz hb' hi)).bind (fun a la => ?_)
    exact (RSafe.lift (tvAdd_ded hb' hi hj la lv)).bind (fun val lval => relaxT_ded hv dz hb' hj lval)
  · refine RSafe.foldlM dy (fun z b hb dz => ?_)
    have hb' : b < g.size := by rw [← dy.frame.shape.size]; exact List.mem_range.1 hb
    refine (RSafe.lift (lower_ded hv dz hb' hj)).bind (fun a la => ?_)
    refine RSafe.foldlM dz (fun w c hc dw => ?_)
    have hc' : c < g.size := by rw [← dz.frame.shape.size]; exact List.mem_range.1 hc
    refine (RSafe.lift (lower_ded hv dw hj hc')).bind (fun a' la' => ?_)
    exact (RSafe.lift (tvAdd_ded hb' hj hc' la la')).bind (fun val lval => relaxT_ded hv dw hb' hc' lval)

theorem gpRowT_ded {g x : Graph} (hv : Valid g) (d : Ded g x) {k i : Nat} (hk : k < g.size) (hi : i < g.size) :
    RSafe (Ded g) (Ded g) (NoSol g) (x.gpRowT k i) := by
  unfold Graph.gpRowT
  refine RSafe.foldlM d (fun z b hb dz => ?_)
  have hb' : b < g.size := by rw [← d.frame.shape.size]; exact List.mem_range.1 hb
  refine (RSafe.lift (lower_ded hv dz hi hk)).bind (fun a la => ?_)
  refine (RSafe.lift (lower_ded hv dz hk hb')).bind (fun a' la' => ?_)
  exact (RSafe.lift (tvAdd_ded hi hk hb' la la')).bind (fun val lval => relaxT_ded hv dz hi hb' lval)

theorem gpT_ded {g : Graph} (hv : Valid g) (hg : SmallMat INF g.size (mat g)) :
    RSafe (Ded g) (fun _ => True) (NoSol g) g.globalPropagationT := by
  unfold Graph.globalPropagationT
  refine RSafe.bind (P := fun p : Graph × Bool => p.2 = false → Ded g p.1) ?_ (fun p hp => .pure trivial)
  refine RSafe.foldlM (fun _ => Ded.refl hg) (fun p k hk hp => ?_)
  have hk' := List.mem_range.1 hk
  refine RSafe.foldlM hp (fun p i hi hp => ?_)
  have hi' := List.mem_range.1 hi
  split
  · exact .pure hp
  · next c =>
    have fp := hp (by cases h : p.2 with
      | true => exact absurd h c
      | false => rfl)
    refine (gpRowT_ded hv fp hk' hi').bind (fun y dy => ?_)
    refine (RSafe.lift (lower_ded hv dy hi' hi')).bind (fun v lv => ?_)
    split
    · exact .pure (fun h => by cases h)
    · exact .pure (fun _ => dy)

/-! ## Histories -/

theorem hinv_ded {N : Nat} {g x : Graph} {P : (Nat → Int) → Prop} (h : HInv N g P) (d : Ded g x) : HInv N x P := by
  have hg := small_of_within h.valid h.within
  have v := d.frame.valid h.valid
  have sz := d.frame.shape.size
  refine ⟨v, d.frame.tidy h.tidy, (within_iff v).2 (by rw [sz]; exact d.range), by rw [sz]; exact h.size, fun i hi => ?_, fun τ r => ?_⟩
  · rw [sz] at hi
    exact Int.le_trans (h.diag i hi) (d.mono i i hi hi)
  · rw [← h.sat τ r, sat_iff v, sat_iff h.valid, sz]
    exact d.sat hg (rep_le h.size r)

theorem hinv_put {N : Nat} {g : Graph} {P : (Nat → Int) → Prop} (h : HInv N g P) {i j : Nat} (hi : i < g.size) (hj : j < g.size)
    {v : Int} (hv : Small INF v) (hle : mat g i j ≤ v) : HInv N (put g i j v) (fun τ => P τ ∧ (v = -INF ∨ v ≤ τ j - τ i)) := by
  have hg := small_of_within h.valid h.within
  have f := Frame.put h.valid hi hj v
  have vp := f.valid h.valid
  have sz : (put g i j v).size = g.size := rfl
  refine ⟨vp, f.tidy h.tidy, (within_iff vp).2 (by rw [sz]; exact put_range h.valid hg hi hj hv), h.size, fun a ha => ?_, fun τ r => ?_⟩
  · have := h.diag a ha
    rw [mat_put v (h.valid.ix_lt hi hj)]
    split
    · next c => obtain ⟨rfl, c⟩ := c; subst c; omega
    · exact this
  · rw [← h.sat τ r, sat_iff vp, sat_iff h.valid]
    exact put_msat h.valid hg hi hj hle τ

theorem HInv.congr {N : Nat} {g : Graph} {P Q : (Nat → Int) → Prop} (h : HInv N g P) (e : ∀ τ, Representable N τ → (P τ ↔ Q τ)) :
    HInv N g Q :=
  ⟨h.valid, h.tidy, h.within, h.size, h.diag, fun τ r => (h.sat τ r).trans (e τ r)⟩

/-- the solutions of `x` are between those of `Q` and those of `P` -/
def Mid (N : Nat) (P Q : (Nat → Int) → Prop) (x : Graph) : Prop :=
  ∃ R, HInv N x R ∧ ∀ τ, Representable N τ → (Q τ → R τ) ∧ (R τ → P τ)

theorem propagateT_mid {N : Nat} (hN : N ≤ 65535) {g : Graph} {P : (Nat → Int) → Prop} (h : HInv N g P) {k : Constr} (hk : Ordinary N k) :
    ∀ x ∈ (g.propagateT k).steps, Mid N P (fun τ => P τ ∧ Holds τ k) x := by
  have INF0 : (0 : Int) < INF := by decide
  obtain ⟨k3, k1, k2, ⟨k4, k5⟩, -⟩ := hk
  cases he : k.isEmpty with
  | true =>
    unfold Graph.propagateT
    rw [if_pos he]
    exact fun x hx => nomatch hx
  | false =>
    have hol : ∀ τ, Holds τ k ↔ (k.lower = -INF ∨ k.lower ≤ τ k.dst - τ k.src) ∧
      (k.upper = INF ∨ τ k.dst - τ k.src ≤ k.upper) := fun τ => holds_iff he
    have tneg : ∀ x : Int, tvNeg x = -x := fun _ => rfl
    -- the two writes
    have low : ∀ {R : (Nat → Int) → Prop} {y : Graph}, HInv N y R → (∀ τ, Representable N τ → (P τ ∧ Holds τ k → R τ) ∧ (R τ → P τ)) →
        k.src < y.size → k.dst < y.size → mat y k.src k.dst ≤ k.lower →
        HInv N (put y k.src k.dst k.lower) (fun τ => R τ ∧ (k.lower = -INF ∨ k.lower ≤ τ k.dst - τ k.src)) ∧
        ∀ τ, Representable N τ → (P τ ∧ Holds τ k → R τ ∧ (k.lower = -INF ∨ k.lower ≤ τ k.dst - τ k.src)) ∧
          (R τ ∧ (k.lower = -INF ∨ k.lower ≤ τ k.dst - τ k.src) → P τ) := by
      intro R y hy hR h1 h2 h3
      refine ⟨hinv_put hy h1 h2 (by unfold Small; omega) h3, fun τ r => ⟨fun a => ⟨(hR τ r).1 a, ((hol τ).1 a.2).1⟩, fun a => (hR τ r).2 a.1⟩⟩
    have upp : ∀ {R : (Nat → Int) → Prop} {y : Graph}, HInv N y R → (∀ τ, Representable N τ → (P τ ∧ Holds τ k → R τ) ∧ (R τ → P τ)) →
        k.src < y.size → k.dst < y.size → mat y k.dst k.src ≤ -k.upper →
        HInv N (put y k.dst k.src (-k.upper)) (fun τ => R τ ∧ (-k.upper = -INF ∨ -k.upper ≤ τ k.src - τ k.dst)) ∧
        ∀ τ, Representable N τ → (P τ ∧ Holds τ k → R τ ∧ (-k.upper = -INF ∨ -k.upper ≤ τ k.src - τ k.dst)) ∧
          (R τ ∧ (-k.upper = -INF ∨ -k.upper ≤ τ k.src - τ k.dst) → P τ) := by
      intro R y hy hR h1 h2 h3
      refine ⟨hinv_put hy h2 h1 (by unfold Small; omega) h3, fun τ r => ⟨fun a => ⟨(hR τ r).1 a, ?_⟩, fun a => (hR τ r).2 a.1⟩⟩
      have := ((hol τ).1 a.2).2
      omega
    have base : ∀ τ, Representable N τ → (P τ ∧ Holds τ k → P τ) ∧ (P τ → P τ) := fun τ _ => ⟨fun a => a.1, id⟩
    unfold Graph.propagateT
    rw [he]
    simp only [Bool.false_eq_true, if_false, tneg]
    by_cases c : g.size ≤ max k.src k.dst
    · rw [if_pos c]
      have e : ((max k.src k.dst : Nat) : Int) + 1 = ((max k.src k.dst + 1 : Nat) : Int) := by omega
      have e2 : ((max k.src k.dst + 1 : Nat) : Int).toNat = max k.src k.dst + 1 := by omega
      obtain ⟨g1, r1, r2, r3, r4, r5⟩ := grow (tidy_clean h.tidy) (n := max k.src k.dst + 1) (by omega)
      have i1 := hinv_grow hN h (n := max k.src k.dst + 1) (by omega) (by omega) r1
      have hs1 : k.src < g1.size := by omega
      have hd1 : k.dst < g1.size := by omega
      obtain ⟨i2, q2⟩ := low i1 base hs1 hd1 (by rw [r5 _ _ (by omega) (by omega), if_neg (by omega), if_neg k3]; omega)
      obtain ⟨i3, q3⟩ := upp i2 q2 hs1 hd1 (by
        rw [mat_put _ (r3.ix_lt hs1 hd1), if_neg (by omega), r5 _ _ (by omega) (by omega), if_neg (by omega), if_neg (by omega)]; omega)
      suffices s : RSafe (Mid N P (fun τ => P τ ∧ Holds τ k)) (fun _ => True) (fun _ => True) (do
          let m ← Run.lift (chkU32 (((max k.src k.dst : Nat) : Int) + 1))
          let g ← Run.put (g.resize m)
          let g ← Run.put (g.setLower k.src k.dst k.lower)
          let g ← Run.put (g.setLower k.dst k.src (-k.upper))
          return (g, Outcome.propagated)) from s.steps
      rw [e, chkU32_ok (by omega) (by omega), e2]
      refine RSafe.bind (P := fun m => m = max k.src k.dst + 1) (.lift (.ok rfl)) ?_
      rintro m rfl
      refine RSafe.bind (P := fun y => y = g1) (.put (Safe.of_eq r1 rfl) (fun y hy => by subst hy; exact ⟨P, i1, base⟩)) ?_
      rintro y rfl
      refine RSafe.bind (P := fun z => z = put y k.src k.dst k.lower) (.put (Safe.of_eq (setLower_eq r3 hs1 hd1 _) rfl)
        (fun y hy => by subst hy; exact ⟨_, i2, q2⟩)) ?_
      rintro z rfl
      refine RSafe.bind (P := fun z => z = put (put y k.src k.dst k.lower) k.dst k.src (-k.upper))
        (.put (Safe.of_eq (setLower_eq i2.valid hd1 hs1 _) rfl) (fun y hy => by subst hy; exact ⟨_, i3, q3⟩)) ?_
      rintro z rfl
      exact .pure trivial
    · rw [if_neg c]
      have hs : k.src < g.size := by omega
      have hd : k.dst < g.size := by omega
      have g1 := small_of_within h.valid h.within _ hs _ hd
      have g2 := small_of_within h.valid h.within _ hd _ hs
      unfold Small at g1 g2
      -- a write followed by its propagation
      have wr : ∀ {R R' : (Nat → Int) → Prop} {y : Graph} {a b : Nat} {v : Int} {β : Type} {f : Graph → Run Graph β}, HInv N y R →
          a < y.size → b < y.size → HInv N (put y a b v) R' → (∀ τ, Representable N τ → (P τ ∧ Holds τ k → R' τ) ∧ (R' τ → P τ)) →
          (∀ z, Ded (put y a b v) z → RSafe (Mid N P (fun τ => P τ ∧ Holds τ k)) (fun _ => True) (fun _ => True) (f z)) →
          RSafe (Mid N P (fun τ => P τ ∧ Holds τ k)) (fun _ => True) (fun _ => True)
            (Run.put (y.setLower a b v) >>= fun g => g.propagateLowerBoundT a b >>= f) := by
        intro R R' y a b v β f hy ha hb hp hR hf
        refine RSafe.bind (P := fun z => z = put y a b v) (.put (Safe.of_eq (setLower_eq hy.valid ha hb v) rfl)
          (fun z hz => by subst hz; exact ⟨R', hp, hR⟩)) ?_
        rintro z rfl
        refine RSafe.bind ((plbT_ded hp.valid (Ded.refl (small_of_within hp.valid hp.within)) (io := a) (jo := b) ha hb).mono
          (fun z dz => ⟨R', hinv_ded hp dz, hR⟩) (fun z dz => dz) (fun _ _ => trivial)) hf
      suffices s : RSafe (Mid N P (fun τ => P τ ∧ Holds τ k)) (fun _ => True) (fun _ => True) (g.propagateT k) by
        have := s.steps
        unfold Graph.propagateT at this
        rw [he] at this
        simp only [Bool.false_eq_true, if_false, tneg] at this
        rw [if_neg c] at this
        exact this
      unfold Graph.propagateT
      rw [he]
      simp only [Bool.false_eq_true, if_false, tneg]
      rw [if_neg c]
      refine RSafe.bind (P := fun v => v = mat g k.src k.dst) (.lift (Safe.of_eq (lower_eq h.valid hs hd) rfl)) ?_
      rintro ij rfl
      refine RSafe.bind (P := fun v => v = mat g k.dst k.src) (.lift (Safe.of_eq (lower_eq h.valid hd hs) rfl)) ?_
      rintro ji rfl
      split
      · split
        · exact .pure trivial
        · split
          · exact .pure trivial
          · obtain ⟨i1, q1⟩ := upp h base hs hd (by omega)
            exact wr h hd hs i1 q1 (fun z _ => .pure trivial)
      · split
        · exact .pure trivial
        · obtain ⟨i1, q1⟩ := low h base hs hd (by omega)
          refine wr h hs hd i1 q1 (fun z dz => ?_)
          have iz := hinv_ded i1 dz
          have sz : z.size = g.size := dz.frame.shape.size
          refine RSafe.bind (P := fun v => v = mat z k.dst k.src) (.lift (Safe.of_eq (lower_eq iz.valid (by omega) (by omega)) rfl)) ?_
          rintro v rfl
          split
          · obtain ⟨i2, q2⟩ := upp iz q1 (by omega) (by omega) (by omega)
            exact wr iz (by omega) (by omega) i2 q2 (fun z _ => .pure trivial)
          · exact .pure trivial

theorem insertT_mid {N : Nat} (hN : N ≤ 65535) {g : Graph} {P : (Nat → Int) → Prop} (h : HInv N g P) {k : Constr} (hk : Ordinary N k) :
    RSafe (Mid N P (fun τ => P τ ∧ Holds τ k)) (fun x => HInv N x (fun τ => P τ ∧ Holds τ k)) (fun _ => False) (g.insertT k) := by
  have INF0 : (0 : Int) < INF := by decide
  have hol := holds_bounds (Int.le_refl INF) hk.2
  obtain ⟨k3, k1, k2, ⟨k4, k5⟩, -⟩ := hk
  have tneg : ∀ x : Int, tvNeg x = -x := fun _ => rfl
  have base : ∀ τ, Representable N τ → (P τ ∧ Holds τ k → P τ) ∧ (P τ → P τ) := fun τ _ => ⟨fun a => a.1, id⟩
  have t2 : ∀ z, (k.src < z.size ∧ k.dst < z.size) ∧ HInv N z (fun τ => P τ ∧ (k.lower = -INF ∨ k.lower ≤ τ k.dst - τ k.src)) →
      RSafe (Mid N P (fun τ => P τ ∧ Holds τ k)) (fun x => HInv N x (fun τ => P τ ∧ Holds τ k)) (fun _ => False) (do
        let u ← Run.lift (z.lower k.dst k.src)
        if u < -k.upper then Run.put (z.setLower k.dst k.src (-k.upper)) else return z) := by
    rintro z ⟨⟨hs, hd⟩, iz⟩
    refine RSafe.bind (P := fun v => v = mat z k.dst k.src) (.lift (Safe.of_eq (lower_eq iz.valid hd hs) rfl)) ?_
    rintro v rfl
    have s2 := small_of_within iz.valid iz.within k.dst hd k.src hs
    unfold Small at s2
    have eqv : ∀ τ, (P τ ∧ (k.lower = -INF ∨ k.lower ≤ τ k.dst - τ k.src)) ∧ (-k.upper = -INF ∨ -k.upper ≤ τ k.src - τ k.dst) ↔
        P τ ∧ Holds τ k := by
      intro τ
      rw [and_assoc, hol τ]
      unfold BoundsHold
      have : (0 : Int) < INF := by decide
      refine and_congr Iff.rfl ?_
      constructor <;> rintro ⟨a, b⟩ <;> constructor <;> omega
    split
    · next c =>
      have i3 := (hinv_put iz hd hs (v := -k.upper) (by unfold Small; omega) (by omega)).congr (fun τ _ => eqv τ)
      exact .put (Safe.of_eq (setLower_eq iz.valid hd hs _) i3) (fun x hx => ⟨_, hx, fun τ r => ⟨id, fun a => a.1⟩⟩)
    · next c =>
      refine .pure (iz.congr (fun τ r => ?_))
      rw [← eqv]
      refine ⟨fun a => ⟨a, ?_⟩, fun a => a.1⟩
      have := (sat_iff iz.valid τ).1 ((iz.sat τ r).2 a) k.dst hd k.src hs
      omega
  have t1 : ∀ y, HInv N y P ∧ k.src < y.size ∧ k.dst < y.size →
      RSafe (Mid N P (fun τ => P τ ∧ Holds τ k)) (fun x => HInv N x (fun τ => P τ ∧ Holds τ k)) (fun _ => False) (do
        let l ← Run.lift (y.lower k.src k.dst)
        let g ← if l < k.lower then Run.put (y.setLower k.src k.dst k.lower) else pure y
        let u ← Run.lift (g.lower k.dst k.src)
        if u < -k.upper then Run.put (g.setLower k.dst k.src (-k.upper)) else return g) := by
    rintro y ⟨iy, hs, hd⟩
    have s1 := small_of_within iy.valid iy.within _ hs _ hd
    unfold Small at s1
    refine RSafe.bind (P := fun v => v = mat y k.src k.dst) (.lift (Safe.of_eq (lower_eq iy.valid hs hd) rfl)) ?_
    rintro v rfl
    split
    · next c =>
      refine RSafe.bind (.put (Safe.of_eq (setLower_eq iy.valid hs hd _) ⟨⟨hs, hd⟩, hinv_put iy hs hd (by unfold Small; omega) (by omega)⟩)
        (fun z hz => ⟨_, hz.2, fun τ r => ⟨fun a => ⟨a.1, ?_⟩, fun a => a.1⟩⟩)) t2
      exact ((hol τ).1 a.2).1
    · next c =>
      refine RSafe.bind (.pure ⟨⟨hs, hd⟩, iy.congr (fun τ r => ⟨fun a => ⟨a, ?_⟩, fun a => a.1⟩)⟩) t2
      have := (sat_iff iy.valid τ).1 ((iy.sat τ r).2 a) _ hs _ hd
      omega
  unfold Graph.insertT
  simp only [tneg]
  have e : ((max k.src k.dst : Nat) : Int) + 1 = ((max k.src k.dst + 1 : Nat) : Int) := by omega
  have e2 : ((max k.src k.dst + 1 : Nat) : Int).toNat = max k.src k.dst + 1 := by omega
  split
  · next c =>
    rw [e, chkU32_ok (by omega) (by omega), e2]
    obtain ⟨g1, r1, r2, -, -, -⟩ := grow (tidy_clean h.tidy) (n := max k.src k.dst + 1) (by omega)
    have i1 := hinv_grow hN h (n := max k.src k.dst + 1) (by omega) (by omega) r1
    refine RSafe.bind (P := fun m => m = max k.src k.dst + 1) (.lift (.ok rfl)) ?_
    rintro m rfl
    exact RSafe.bind (.put (Safe.of_eq r1 ⟨i1, by omega, by omega⟩) (fun y hy => ⟨P, hy.1, base⟩)) t1
  · exact RSafe.bind (.pure ⟨h, by omega, by omega⟩) t1

theorem insertAllT_mid {N : Nat} (hN : N ≤ 65535) : ∀ (ks : List Constr) {g : Graph} {P : (Nat → Int) → Prop}, HInv N g P →
    (∀ k ∈ ks, Ordinary N k) →
    RSafe (Mid N P (fun τ => P τ ∧ ∀ k ∈ ks, Holds τ k)) (fun x => HInv N x (fun τ => P τ ∧ ∀ k ∈ ks, Holds τ k)) (fun _ => False)
      (ks.foldlM Graph.insertT g)
  | [], g, P, h, _ => .pure (h.congr (fun τ _ => by simp))
  | k :: ks, g, P, h, hk => by
    rw [List.foldlM_cons]
    have s := insertT_mid hN h (hk k (by simp))
    refine RSafe.bind (P := fun x => HInv N x (fun τ => P τ ∧ Holds τ k)) (s.mono ?_ (fun _ a => a) (fun _ a => a)) (fun x hx => ?_)
    · rintro x ⟨R, h1, h2⟩
      exact ⟨R, h1, fun τ r => ⟨fun a => (h2 τ r).1 ⟨a.1, a.2 k (by simp)⟩, (h2 τ r).2⟩⟩
    · refine (insertAllT_mid hN ks hx (fun l hl => hk l (by simp [hl]))).mono ?_ ?_ (fun _ a => a)
      · rintro y ⟨R, h1, h2⟩
        exact ⟨R, h1, fun τ r => ⟨fun a => (h2 τ r).1 ⟨⟨a.1, a.2 k (by simp)⟩, fun l hl => a.2 l (by simp [hl])⟩,
          fun a => ((h2 τ r).2 a).1⟩⟩
      · intro y hy
        exact hy.congr (fun τ _ => by rw [List.forall_mem_cons, and_assoc])

theorem extendT_mid {N : Nat} (hN : N ≤ 65535) {g : Graph} {P : (Nat → Int) → Prop} (h : HInv N g P) {ks : List Constr}
    (hk : ∀ k ∈ ks, Ordinary N k) (hint : Option Nat) :
    ∀ x ∈ (g.extendT hint ks).steps, Mid N P (fun τ => P τ ∧ ∀ k ∈ ks, Holds τ k) x := by
  unfold Graph.extendT
  split
  · exact fun x hx => nomatch hx
  · split
    · cases ks with
      | nil => exact fun x hx => nomatch hx
      | cons k l =>
        intro x hx
        obtain ⟨R, h1, h2⟩ := propagateT_mid hN h (hk k (by simp)) x hx
        exact ⟨R, h1, fun τ r => ⟨fun a => (h2 τ r).1 ⟨a.1, a.2 k (by simp)⟩, (h2 τ r).2⟩⟩
    · refine RSafe.steps (P := fun _ => True) (E := fun _ => True) ?_
      refine RSafe.bind ((insertAllT_mid hN ks h hk).mono (fun _ a => a) (fun _ a => a) (fun _ _ => trivial)) (fun y hy => ?_)
      exact (gpT_ded hy.valid (small_of_within hy.valid hy.within)).mono
        (fun x d => ⟨_, hinv_ded hy d, fun τ r => ⟨id, fun a => a.1⟩⟩) (fun _ a => a) (fun _ _ => trivial)

theorem merge_first {N : Nat} {g h : Graph} {P Q : (Nat → Int) → Prop} (hg : HInv N g P) (hh : HInv N h Q) (hl : h.size ≤ g.size) :
    HInv N { g with data := (Graph.zipMax g.data h.data).1 } (fun τ => P τ ∧ Q τ) := by
  have hth := tidy_iff.1 hh.tidy
  have INF0 : (0 : Int) < INF := by decide
  have sg := small_of_within hg.valid hg.within
  have sh := small_of_within hh.valid hh.within
  have small : ∀ {x : Int}, Small INF x → -INF ≤ x := fun h => by unfold Small at h; omega
  obtain ⟨hv', -, tdy⟩ := merge_big hg.valid hl
  have hm : ∀ i j, i < g.size → j < g.size →
      mat { g with data := (Graph.zipMax g.data h.data).1 } i j = max (mat g i j) (mat h i j) := fun i j hi hj => by
    rw [zip_mat (small (sg i hi j hj)), if_pos (hg.valid.ix_lt hi hj)]
  refine ⟨hv', tdy hg.tidy hh.tidy, (within_iff hv').2 fun i hi j hj => ?_, hg.size, fun i hi => ?_, fun τ r => ?_⟩
  · have s1 := sg i hi j hj
    rw [hm i j hi hj]
    by_cases c : i < h.size ∧ j < h.size
    · have s2 := sh i c.1 j c.2
      unfold Small at *
      omega
    · have := hth i j (by omega)
      unfold Small at *
      omega
  · have := hg.diag i hi
    rw [hm i i hi hi]
    omega
  · rw [← hg.sat τ r, ← hh.sat τ r, sat_iff hv', sat_iff hg.valid, sat_iff hh.valid]
    constructor
    · intro t
      refine ⟨fun i hi j hj => ?_, fun i hi j hj => ?_⟩
      · have a := t i hi j hj
        have s1 := small (sg i hi j hj)
        rw [hm i j hi hj] at a
        omega
      · have a := t i (Nat.lt_of_lt_of_le hi hl) j (Nat.lt_of_lt_of_le hj hl)
        have s2 := small (sh i hi j hj)
        rw [hm i j (by omega) (by omega)] at a
        omega
    · rintro ⟨t1, t2⟩ i hi j hj
      simp only at hi hj
      rw [hm i j hi hj]
      have a := t1 i hi j hj
      by_cases c : i < h.size ∧ j < h.size
      · have b := t2 i c.1 j c.2
        omega
      · have := hth i j (by omega)
        by_cases e : i = j
        · subst e
          have := hg.diag i hi
          omega
        · omega

theorem mergeT_mid {N : Nat} {g h : Graph} {P Q : (Nat → Int) → Prop} (hg : HInv N g P) (hh : HInv N h Q) :
    ∀ x ∈ (g.mergeT h).steps, HInv N x (fun τ => P τ ∧ Q τ) := by
  have tail : ∀ y, HInv N y (fun τ => P τ ∧ Q τ) → ∀ c d : Bool, RSafe (fun x => HInv N x (fun τ => P τ ∧ Q τ)) (fun _ => True) (fun _ => True)
      (if c then y.globalPropagationT else if d then pure (y, Outcome.propagated) else pure (y, Outcome.unchanged)) := by
    intro y hy c d
    split
    · exact (gpT_ded hy.valid (small_of_within hy.valid hy.within)).mono (fun x e => hinv_ded hy e) (fun _ a => a) (fun _ _ => trivial)
    · split <;> exact .pure trivial
  have one : ∀ {g h : Graph}, HInv N { g with data := (Graph.zipMax g.data h.data).1 } (fun τ => P τ ∧ Q τ) → ∀ c d : Bool,
      RSafe (fun x => HInv N x (fun τ => P τ ∧ Q τ)) (fun _ => True) (fun _ => True) (do
        let y ← Run.put (.ok { g with data := (Graph.zipMax g.data h.data).1 })
        if c then y.globalPropagationT else if d then pure (y, Outcome.propagated) else pure (y, Outcome.unchanged)) := by
    intro g h i c d
    exact RSafe.bind (.put (.ok i) (fun _ a => a)) (fun y hy => tail y hy c d)
  refine RSafe.steps (P := fun _ => True) (E := fun _ => True) ?_
  unfold Graph.mergeT
  by_cases c : g.size < h.size
  · simp only [if_pos c]
    exact one ((merge_first hh hg (by omega)).congr (fun τ _ => and_comm)) _ true
  · simp only [if_neg c]
    exact one (merge_first hg hh (by omega)) _ false

theorem extendCut_mid {N : Nat} (hN : N ≤ 65535) {g : Graph} {P : (Nat → Int) → Prop} (h : HInv N g P) {ks : List Constr}
    (hk : ∀ k ∈ ks, Ordinary N k) : ∃ x, g.extendCut ks = .ok x ∧ HInv N x (fun τ => P τ ∧ ∀ k ∈ ks, Holds τ k) := by
  have s := (insertAllT_mid hN ks h hk).res
  rw [Run.res_foldlM (fun a b => Graph.insertT_res a b)] at s
  rcases s.cases with ⟨x, e, hx⟩ | ⟨_, _, f⟩
  · exact ⟨x, e, hx⟩
  · exact f.elim

/-! ## Schedules -/

/-- `x` is a content which the request may leave in place of `s`: it keeps the solutions of `s` which satisfy `Q` and has no others -/
structure SMid (s : Sched) (Q : (Nat → Int) → Prop) (x : Sched) : Prop where
  graph : x.graph = s.graph
  loose : LooseSched x
  sub : ∀ j t, Slot x j t → Slot s j t
  keep : ∀ τ, FiniteDates s.graph.size τ → Feasible τ s → Q τ → Feasible τ x

theorem SMid.trans {s y x : Sched} {Q : (Nat → Int) → Prop} (h : SMid s Q y) (k : SMid y Q x) : SMid s Q x :=
  ⟨k.graph.trans h.graph, k.loose, fun j t a => h.sub j t (k.sub j t a),
    fun τ f a q => k.keep τ (by rw [h.graph]; exact f) (h.keep τ f a q) q⟩

theorem SMid.refl {s : Sched} {Q : (Nat → Int) → Prop} (h : LooseSched s) : SMid s Q s :=
  ⟨rfl, h, fun _ _ a => a, fun _ _ a _ => a⟩

theorem Retained.mid {s s' : Sched} {o : Outcome} {i : Nat} {w : Window} (R : Retained s s' o i w) {Q : (Nat → Int) → Prop}
    (hQ : ∀ τ, FiniteDates s.graph.size τ → Q τ → InExtWindow (τ i) w) : SMid s Q s' :=
  ⟨R.graph, R.loose, R.sub, fun τ f a q => ⟨by rw [R.graph]; exact a.1, by rw [R.graph]; exact R.keep τ f a.1 a.2 (hQ τ f q)⟩⟩

theorem retainT_mid (dbg : Bool) {s : Sched} (hv : Valid s.graph) (hs : Spanned s.graph) (hc : LooseSched s) {i : Nat}
    (hi : i < s.graph.size) {w : Window} (hw : ProperWindow w) {Q : (Nat → Int) → Prop}
    (hQ : ∀ τ, FiniteDates s.graph.size τ → Q τ → InExtWindow (τ i) w) :
    RSafe (SMid s Q) (fun p => SMid s Q p.1) (fun _ => True) (s.retainT dbg i w) := by
  have res : Safe (fun p => SMid s Q p.1) (fun _ => True) (s.retainT dbg i w).res := by
    rw [Sched.retainT_res]
    rcases retain_any dbg hv hs hc hi hw with ⟨s', o, e, R⟩ | ⟨-, e⟩
    · rw [e]; exact .ok (R.mid hQ)
    · rw [e]; exact .error trivial
  refine ⟨?_, res⟩
  have hl : i < s.schedule.length := by rw [hc.1]; exact hi
  have ei : s.schedule[i]? = some s.schedule[i] := List.getElem?_eq_getElem hl
  have hmem : s.schedule[i] ∈ s.schedule := List.getElem_mem hl
  generalize s.schedule[i] = si at ei hmem
  have eg : sget s.schedule i = .ok si := by unfold sget; rw [ei]
  obtain ⟨r, h1, h2, -, h4⟩ := restrict_loose hw (hc.2 si hmem) (within_inf_loose (hc.2 si hmem)) (withinWindow_inf hw)
  have es : sset s.schedule i r = .ok (s.schedule.set i r) := by unfold sset; rw [if_pos hl]
  obtain ⟨ks, g1, g2, g3, -⟩ := C72_from_partial hv hi
  refine RSafe.steps (P := fun _ => True) (E := fun _ => True) ?_
  unfold Sched.retainT
  rw [if_pos hl]
  refine RSafe.bind (P := fun v => v = si) (.lift (Safe.of_eq eg rfl)) ?_
  rintro v rfl
  split
  · exact .pure trivial
  split
  · exact .pure trivial
  refine RSafe.bind (P := fun v => v = r) (.lift (Safe.of_eq h1 rfl)) ?_
  rintro v' rfl
  -- the first write
  have m1 : SMid s Q ⟨s.graph, s.schedule.set i v'⟩ := by
    refine ⟨rfl, ⟨by rw [List.length_set]; exact hc.1, fun u hu => ?_⟩, ?_, fun τ f a q => ⟨a.1, fun j hj => ?_⟩⟩
    · rcases List.mem_or_eq_of_mem_set hu with h | h
      · exact hc.2 u h
      · rw [h]; exact h2
    · rintro j t ⟨u, hu, ht⟩
      have hu : (s.schedule.set i v')[j]? = some u := hu
      by_cases c : i = j
      · subst c
        rw [List.getElem?_set_self hl] at hu
        cases hu
        exact ⟨v, ei, ((h4 t).1 ht).1⟩
      · rw [List.getElem?_set_ne c] at hu
        exact ⟨u, hu, ht⟩
    · by_cases c : i = j
      · subst c
        exact ⟨v', List.getElem?_set_self hl, (h4 _).2 ⟨(slot_get ei _).1 (a.2 i hi), hQ τ f q⟩⟩
      · obtain ⟨u, hu, ht⟩ := a.2 j hj
        exact ⟨u, (List.getElem?_set_ne c).trans hu, ht⟩
  refine RSafe.bind (P := fun y => y = (⟨s.graph, s.schedule.set i v'⟩ : Sched)) (.put (Safe.of_eq (by rw [es]; rfl) rfl)
    (fun y hy => by subst hy; exact m1)) ?_
  rintro y rfl
  refine RSafe.bind (P := fun l => l = ks) (.lift (Safe.of_eq g1 rfl)) ?_
  rintro l rfl
  refine RSafe.bind (P := SMid s Q) ?_ (fun _ _ => .pure trivial)
  refine RSafe.foldlM m1 (fun y k hk my => ?_)
  obtain ⟨-, hd, -, ht, -⟩ := g3 k hk
  have ly : y.schedule.length = s.graph.size := by rw [my.loose.1, my.graph]
  refine .put ?_ (fun _ a => a)
  rcases propagateOne_any dbg (i := i) (sch := y.schedule) (k := k) (by omega) (by omega) my.loose.2 (hs i k.dst hi hd _ ht) with
    ⟨sch', e1, n1, l1, b1, t1⟩ | ⟨-, e1⟩
  · rw [e1]
    refine .ok (my.trans ⟨rfl, ⟨by rw [n1]; exact my.loose.1, l1⟩, ?_, fun τ f a q => ⟨a.1, fun j hj => ?_⟩⟩)
    · rintro j t ⟨u, hu, ht⟩
      obtain ⟨u', hu', h⟩ := b1 j u hu
      exact ⟨u', hu', h t ht⟩
    · simp only at hj
      rw [my.graph] at hj f
      have hj' : j < sch'.length := by omega
      refine ⟨sch'[j], List.getElem?_eq_getElem hj', ?_⟩
      refine t1 τ (f _ hd) ?_ (fun b u hu => ?_) j _ (List.getElem?_eq_getElem hj')
      · obtain ⟨sp, e, h⟩ := a.1 i k.dst (by rw [my.graph]; exact hi) (by rw [my.graph]; exact hd)
        rw [my.graph, ht] at e
        cases e
        exact h
      · have : b < y.schedule.length := by
          rw [List.getElem?_eq_some_iff] at hu
          exact hu.1
        exact (slot_get hu _).1 (a.2 b (by rw [my.graph]; omega))
  · rw [e1]
    exact .error trivial

theorem retainAllT_mid (dbg : Bool) {s : Sched} (hv : Valid s.graph) (hs : Spanned s.graph) (hc : LooseSched s) {w : Convex}
    (hw : Proper w) {Q : (Nat → Int) → Prop}
    (hQ : ∀ τ, FiniteDates s.graph.size τ → Q τ → ∀ i, i < s.graph.size → InExtConvex (τ i) w) :
    RSafe (SMid s Q) (fun p => SMid s Q p.1) (fun _ => True) (s.retainAllT dbg (.conv w)) := by
  unfold Sched.retainAllT
  refine RSafe.foldlM (P := fun p : Sched × Outcome => SMid s Q p.1) (SMid.refl hc) (fun p i hi hp => ?_)
  have hi : i < s.graph.size := by rw [← hc.1]; exact List.mem_range.1 hi
  have r := retainT_mid dbg (s := p.1) (by rw [hp.graph]; exact hv) (by rw [hp.graph]; exact hs) hp.loose (i := i) (by rw [hp.graph]; exact hi)
    (w := .conv w) hw (Q := Q) (fun τ f q => hQ τ (by rw [← hp.graph]; exact f) q i hi)
  refine RSafe.bind (P := fun q : Sched × Outcome => SMid s Q q.1) (r.mono (fun x hx => hp.trans hx) (fun x hx => hp.trans hx) (fun _ _ => trivial)) ?_
  rintro ⟨x, o⟩ hx
  cases o
  · exact .pure hx
  · exact .pure hx
  · exact .lift (.error trivial)
  · exact .lift (.error trivial)

theorem runT_mid (dbg : Bool) {s : Sched} (hv : Valid s.graph) (hs : Spanned s.graph) (hc : LooseSched s) {r : Req}
    (hr : r.Proper s.graph.size) : ∀ x ∈ (r.runT dbg s).steps, SMid s (r.Allows s.graph.size) x := by
  refine RSafe.steps (P := fun _ => True) (E := fun _ => True) ?_
  cases r with
  | retain i w => exact (retainT_mid dbg hv hs hc hr.1 hr.2 (fun τ _ q => q)).mono (fun _ a => a) (fun _ _ => trivial) (fun _ _ => trivial)
  | remove i w =>
    obtain ⟨n1, n2⟩ := neg_any hr.2
    exact (retainT_mid dbg hv hs hc hr.1 (w := .set w.not) n1 (fun τ f q => (n2 _ (f i hr.1)).2 q)).mono (fun _ a => a) (fun _ _ => trivial)
      (fun _ _ => trivial)
  | deadline d =>
    show RSafe _ _ _ (s.setDeadlineT dbg d)
    unfold Sched.setDeadlineT
    split
    · exact .lift (.ok trivial)
    · exact (retainAllT_mid dbg hv hs hc (w := .rangeToIncl d) hr (fun τ f q i hi => Or.inr (q i hi))).mono (fun _ a => a)
        (fun _ _ => trivial) (fun _ _ => trivial)
  | startline d =>
    show RSafe _ _ _ (s.setStartlineT dbg d)
    unfold Sched.setStartlineT
    split
    · exact .lift (.ok trivial)
    · exact (retainAllT_mid dbg hv hs hc (w := .rangeFrom d) hr (fun τ f q i hi => Or.inr (q i hi))).mono (fun _ a => a)
        (fun _ _ => trivial) (fun _ _ => trivial)

end Chrono
