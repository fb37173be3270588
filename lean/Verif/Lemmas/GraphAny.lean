import Verif.Lemmas.GraphSafe
import Verif.Lemmas.GraphHist

/-!
# Propagation on any graph, whatever the bounds are

Sums of bounds may saturate. What is deduced is nevertheless true of all the representable solutions, and a panic means
that there is none.
-/

set_option linter.unusedSimpArgs false

namespace Chrono
open Spec

/-- `v` is a lower bound of the delay from `i` to `j` in all the representable solutions -/
structure Lb (g : Graph) (i j : Nat) (v : Int) : Prop where
  range : Small INF v
  imp : ∀ τ, Representable g.size τ → MSat g.size (mat g) τ → v = -INF ∨ v ≤ τ j - τ i

/-- `x` has the same representable solutions as `g` -/
structure Ded (g x : Graph) : Prop where
  frame : Frame g x
  range : SmallMat INF g.size (mat x)
  mono : ∀ a b, a < g.size → b < g.size → mat g a b ≤ mat x a b
  imp : ∀ τ, Representable g.size τ → MSat g.size (mat g) τ → MSat g.size (mat x) τ

/-- a panic means that there is no representable solution -/
abbrev NoSol (g : Graph) (_ : Panic) : Prop := ¬ ∃ τ, Representable g.size τ ∧ MSat g.size (mat g) τ

theorem Ded.refl {g : Graph} (h : SmallMat INF g.size (mat g)) : Ded g g :=
  ⟨Frame.refl g, h, fun _ _ _ _ => Int.le_refl _, fun _ _ h => h⟩

theorem Ded.sat {g x : Graph} (hg : SmallMat INF g.size (mat g)) (d : Ded g x) {τ : Nat → Int} (hτ : Representable g.size τ) :
    MSat g.size (mat x) τ ↔ MSat g.size (mat g) τ := by
  refine ⟨fun h i hi j hj => ?_, d.imp τ hτ⟩
  have a := h i hi j hj
  have b := d.mono i j hi hj
  have c := hg i hi j hj
  unfold Small at c
  omega

theorem lower_ded {g x : Graph} (hv : Valid g) (d : Ded g x) {i j : Nat} (hi : i < g.size) (hj : j < g.size) :
    Safe (Lb g i j) (NoSol g) (x.lower i j) :=
  Safe.of_eq (lower_eq (d.frame.valid hv) (by rw [d.frame.shape.size]; exact hi) (by rw [d.frame.shape.size]; exact hj))
    ⟨d.range i hi j hj, fun τ h1 h2 => d.imp τ h1 h2 i hi j hj⟩

theorem tvAdd_ded {g : Graph} {i m j : Nat} (hi : i < g.size) (hm : m < g.size) (hj : j < g.size) {a b : Int}
    (ha : Lb g i m a) (hb : Lb g m j b) : Safe (Lb g i j) (NoSol g) (tvAdd a b) := by
  have ra := ha.range
  have rb := hb.range
  have INF0 : (0 : Int) < INF := by decide
  have bad : a = INF ∨ b = INF → ∀ τ, Representable g.size τ → MSat g.size (mat g) τ → False := by
    intro h τ h1 h2
    have x := ha.imp τ h1 h2
    have y := hb.imp τ h1 h2
    have u := h1 i m hi hm
    have v := h1 m j hm hj
    omega
  have no : a = INF ∨ b = INF → NoSol g .assertFail := fun h ⟨τ, h1, h2⟩ => bad h τ h1 h2
  unfold tvAdd isFutureInfinite isPastInfinite isFinite
  simp only [decide_eq_true_eq, Bool.and_eq_true, bne_iff_ne, ne_eq, beq_iff_eq]
  split
  · next c =>
    split
    · exact .error (no (Or.inl c))
    · exact .ok ⟨ra, fun τ h1 h2 => absurd h2 (fun h2 => bad (Or.inl c) τ h1 h2)⟩
  · split
    · next c =>
      split
      · next c' => exact .error (no (Or.inr c'))
      · exact .ok ⟨ra, fun τ h1 h2 => Or.inl c⟩
    · next c1 c2 =>
      split
      · next c3 =>
        have e : fromTicks (sat64 (a + b)) = max (-INF) (min INF (a + b)) := by
          unfold Small at ra rb
          unfold fromTicks sat64
          ticks
        rw [e]
        refine .ok ⟨by unfold Small; omega, fun τ h1 h2 => ?_⟩
        have x := ha.imp τ h1 h2
        have y := hb.imp τ h1 h2
        have w := h1 i j hi hj
        omega
      · next c3 =>
        have e : b = INF ∨ b = -INF := by unfold Small at rb; omega
        refine .ok ⟨rb, fun τ h1 h2 => ?_⟩
        rcases e with e | e
        · exact absurd h2 (fun h2 => bad (Or.inr e) τ h1 h2)
        · exact Or.inl e

theorem relax_ded {g x : Graph} (hv : Valid g) (d : Ded g x) {i j : Nat} (hi : i < g.size) (hj : j < g.size) {v : Int}
    (h : Lb g i j v) : Safe (Ded g) (NoSol g) (x.relax i j v) := by
  have hi' : i < x.size := by rw [d.frame.shape.size]; exact hi
  have hj' : j < x.size := by rw [d.frame.shape.size]; exact hj
  have vx := d.frame.valid hv
  refine Safe.of_eq (relax_eq vx hi' hj' v) ⟨d.frame.trans (Frame.put vx hi' hj' _), ?_, ?_, ?_⟩
  · intro a ha b hb
    rw [mat_put _ (vx.ix_lt hi' hj')]
    have r := d.range a ha b hb
    split
    · next c =>
      obtain ⟨rfl, rfl⟩ := c
      have := h.range
      unfold Small at *
      omega
    · exact r
  · intro a b ha hb
    rw [mat_put _ (vx.ix_lt hi' hj')]
    have r := d.mono a b ha hb
    split
    · next c => obtain ⟨rfl, rfl⟩ := c; omega
    · exact r
  · intro τ h1 h2 a ha b hb
    rw [mat_put _ (vx.ix_lt hi' hj')]
    have r := d.imp τ h1 h2 a ha b hb
    split
    · next c =>
      obtain ⟨rfl, rfl⟩ := c
      have q := h.imp τ h1 h2
      omega
    · exact r

theorem plb_ded {g x : Graph} (hv : Valid g) (d : Ded g x) {io jo : Nat} (hi : io < g.size) (hj : jo < g.size) :
    Safe (Ded g) (NoSol g) (x.propagateLowerBound io jo) := by
  unfold Graph.propagateLowerBound
  refine (lower_ded hv d hi hj).bind (fun v lv => ?_)
  refine Safe.bind (P := Ded g) ?_ (fun y dy => ?_)
  · refine Safe.foldlM d (fun z b hb dz => ?_)
    have hb' : b < g.size := by rw [← d.frame.shape.size]; exact List.mem_range.1 hb
    refine (lower_ded hv dz hb' hi).bind (fun a la => ?_)
    exact (tvAdd_ded hb' hi hj la lv).bind (fun val lval => relax_ded hv dz hb' hj lval)
  · refine Safe.foldlM dy (fun z b hb dz => ?_)
    have hb' : b < g.size := by rw [← dy.frame.shape.size]; exact List.mem_range.1 hb
    refine (lower_ded hv dz hb' hj).bind (fun a la => ?_)
    refine Safe.foldlM dz (fun w c hc dw => ?_)
    have hc' : c < g.size := by rw [← dz.frame.shape.size]; exact List.mem_range.1 hc
    refine (lower_ded hv dw hj hc').bind (fun a' la' => ?_)
    exact (tvAdd_ded hb' hj hc' la la').bind (fun val lval => relax_ded hv dw hb' hc' lval)

/-- raising one bound -/
theorem put_msat {g : Graph} (hv : Valid g) (hg : SmallMat INF g.size (mat g)) {i j : Nat} (hi : i < g.size) (hj : j < g.size)
    {v : Int} (hle : mat g i j ≤ v) (τ : Nat → Int) :
    MSat g.size (mat (put g i j v)) τ ↔ MSat g.size (mat g) τ ∧ (v = -INF ∨ v ≤ τ j - τ i) := by
  have hm := mat_put v (hv.ix_lt hi hj)
  constructor
  · intro h
    refine ⟨fun a ha b hb => ?_, ?_⟩
    · have x := h a ha b hb
      have r := hg a ha b hb
      rw [hm] at x
      unfold Small at r
      split at x
      · next c => obtain ⟨rfl, rfl⟩ := c; omega
      · exact x
    · have x := h i hi j hj
      rw [hm, if_pos ⟨rfl, rfl⟩] at x
      exact x
  · rintro ⟨h1, h2⟩ a ha b hb
    rw [hm]
    split
    · next c => obtain ⟨rfl, rfl⟩ := c; exact h2
    · exact h1 a ha b hb

theorem put_range {g : Graph} (hv : Valid g) (hg : SmallMat INF g.size (mat g)) {i j : Nat} (hi : i < g.size)
    (hj : j < g.size) {v : Int} (h : Small INF v) : SmallMat INF g.size (mat (put g i j v)) := by
  intro a ha b hb
  rw [mat_put v (hv.ix_lt hi hj)]
  split
  · exact h
  · exact hg a ha b hb

/-- a result of setting a bound and propagating it -/
structure Raised (g : Graph) (i j : Nat) (v : Int) (x : Graph) : Prop where
  frame : Frame g x
  range : SmallMat INF g.size (mat x)
  mono : ∀ a b, a < g.size → b < g.size → mat g a b ≤ mat x a b
  sat : ∀ τ, Representable g.size τ → (MSat g.size (mat x) τ ↔ MSat g.size (mat g) τ ∧ (v = -INF ∨ v ≤ τ j - τ i))

theorem raise_any {g : Graph} (hv : Valid g) (hg : SmallMat INF g.size (mat g)) {i j : Nat} (hi : i < g.size)
    (hj : j < g.size) {v : Int} (h : Small INF v) (hle : mat g i j ≤ v) :
    Safe (Raised g i j v)
      (fun _ => ¬ ∃ τ, Representable g.size τ ∧ MSat g.size (mat g) τ ∧ (v = -INF ∨ v ≤ τ j - τ i))
      (g.setLower i j v >>= fun x => x.propagateLowerBound i j) := by
  rw [setLower_eq hv hi hj, ok_bind]
  have rp := put_range hv hg hi hj h
  have sp := put_msat hv hg hi hj hle
  have vp : Valid (put g i j v) := hv.put i j v
  have s := plb_ded (g := put g i j v) vp (Ded.refl rp) (io := i) (jo := j) hi hj
  rcases s.cases with ⟨x, e, d⟩ | ⟨e', e, d⟩
  · rw [e]
    refine .ok ⟨(Frame.put hv hi hj v).trans d.frame, d.range, fun a b ha hb => ?_, fun τ hτ => ?_⟩
    · have m := d.mono a b ha hb
      rw [mat_put v (hv.ix_lt hi hj)] at m
      split at m
      · next c => obtain ⟨rfl, rfl⟩ := c; omega
      · exact m
    rw [← sp]
    exact d.sat rp hτ
  · rw [e]
    refine .error (fun ⟨τ, h1, h2⟩ => d ⟨τ, h1, (sp τ).2 h2⟩)

/-- a result of `propagate` on instants of the graph -/
structure PropPost (g : Graph) (k : Constr) (p : Graph × Outcome) : Prop where
  frame : Frame g p.1
  range : SmallMat INF g.size (mat p.1)
  mono : ∀ a b, a < g.size → b < g.size → mat g a b ≤ mat p.1 a b
  fatal : p.2 ≠ .fatal
  same : p.2 = .unchanged ∨ p.2 = .recovered → p.1 = g
  bad : p.2 = .recovered → ∀ τ, Representable g.size τ → ¬ (MSat g.size (mat g) τ ∧ Holds τ k)
  sat : p.2 ≠ .recovered → ∀ τ, Representable g.size τ → (MSat g.size (mat p.1) τ ↔ MSat g.size (mat g) τ ∧ Holds τ k)

theorem Safe.monoE {α : Type} {P : α → Prop} {E F : Panic → Prop} {x : Res α} (h : Safe P E x)
    (hf : ∀ e, E e → F e) : Safe P F x := by
  cases h with
  | error h => exact .error (hf _ h)
  | ok h => exact .ok h

theorem propagate_any {g : Graph} (hv : Valid g) (hg : SmallMat INF g.size (mat g)) {k : Constr} (hs : k.src < g.size)
    (hd : k.dst < g.size) (hk : WithinK INF k) :
    Safe (PropPost g k) (fun _ => ¬ ∃ τ, Representable g.size τ ∧ MSat g.size (mat g) τ ∧ Holds τ k) (g.propagate k) := by
  obtain ⟨k1, k2⟩ := hk
  have g1 := hg _ hs _ hd
  have g2 := hg _ hd _ hs
  unfold Small at g1 g2
  unfold Graph.propagate
  cases he : k.isEmpty with
  | true =>
    rw [if_pos rfl]
    refine .ok ⟨Frame.refl g, hg, fun _ _ _ _ => Int.le_refl _, by simp, fun _ => rfl, fun _ τ _ h => ?_, fun h => absurd rfl h⟩
    have := h.2.1
    rw [he] at this
    cases this
  | false =>
    simp only [Bool.false_eq_true, if_false]
    rw [if_neg (by omega), lower_eq hv hs hd, ok_bind, lower_eq hv hd hs, ok_bind]
    have tneg : ∀ x : Int, tvNeg x = -x := fun _ => rfl
    simp only [tneg]
    have hol : ∀ τ, Holds τ k ↔ (k.lower = -INF ∨ k.lower ≤ τ k.dst - τ k.src) ∧
      (k.upper = INF ∨ τ k.dst - τ k.src ≤ k.upper) := fun τ => holds_iff he
    by_cases c1 : k.lower ≤ mat g k.src k.dst
    · rw [if_pos c1]
      by_cases c2 : -k.upper ≤ mat g k.dst k.src
      · rw [if_pos c2]
        refine .ok ⟨Frame.refl g, hg, fun _ _ _ _ => Int.le_refl _, by simp, fun _ => rfl, fun h => (by cases h), fun _ τ _ => ?_⟩
        refine ⟨fun h => ⟨h, ?_⟩, fun h => h.1⟩
        rw [hol]
        have a : _ ∨ mat g _ _ ≤ _ := h _ hs _ hd
        have b : _ ∨ mat g _ _ ≤ _ := h _ hd _ hs
        simp only at a b
        omega
      · rw [if_neg c2]
        by_cases c3 : mat g k.src k.dst > k.upper
        · rw [if_pos c3]
          refine .ok ⟨Frame.refl g, hg, fun _ _ _ _ => Int.le_refl _, by simp, fun _ => rfl, fun _ τ _ h => ?_, fun h => absurd rfl h⟩
          have a := h.1 _ hs _ hd
          have b := (hol τ).1 h.2
          omega
        · rw [if_neg c3, ← bind_assoc]
          have r := raise_any hv hg hd hs (v := -k.upper) (by unfold Small; omega) (by omega)
          have eqv : ∀ τ, MSat g.size (mat g) τ ∧ (-k.upper = -INF ∨ -k.upper ≤ τ k.src - τ k.dst) ↔
              MSat g.size (mat g) τ ∧ Holds τ k := by
            intro τ
            rw [hol]
            constructor
            · rintro ⟨h1, h2⟩
              have a := h1 _ hs _ hd
              refine ⟨h1, ?_⟩
              omega
            · rintro ⟨h1, h2⟩
              exact ⟨h1, by omega⟩
          refine Safe.bind (r.monoE (fun e h ⟨τ, h1, h2⟩ => h ⟨τ, h1, (eqv τ).2 h2⟩)) (fun x rx => ?_)
          refine .ok ⟨rx.frame, rx.range, rx.mono, by simp, fun h => (by rcases h with h | h <;> cases h), fun h => (by cases h),
            fun _ τ hτ => ?_⟩
          rw [← eqv]
          exact rx.sat τ hτ
    · rw [if_neg c1]
      by_cases c2 : mat g k.dst k.src > -k.lower
      · rw [if_pos c2]
        refine .ok ⟨Frame.refl g, hg, fun _ _ _ _ => Int.le_refl _, by simp, fun _ => rfl, fun _ τ _ h => ?_, fun h => absurd rfl h⟩
        have a := h.1 _ hd _ hs
        have b := (hol τ).1 h.2
        omega
      · rw [if_neg c2, ← bind_assoc]
        have r := raise_any hv hg hs hd (v := k.lower) (by unfold Small; omega) (by omega)
        refine Safe.bind (r.monoE (fun e h ⟨τ, h1, h2, h3⟩ => h ⟨τ, h1, h2, ((hol τ).1 h3).1⟩)) (fun x rx => ?_)
        have vx := rx.frame.valid hv
        have sz := rx.frame.shape.size
        rw [lower_eq vx (by omega) (by omega), ok_bind]
        have gx := rx.range _ hd _ hs
        unfold Small at gx
        by_cases c3 : mat x k.dst k.src < -k.upper
        · rw [if_pos c3, ← bind_assoc]
          have r2 := raise_any vx (by rw [sz]; exact rx.range) (i := k.dst) (j := k.src) (by omega) (by omega)
            (v := -k.upper) (by unfold Small; omega) (by omega)
          rw [sz] at r2
          refine Safe.bind (r2.monoE (fun e h ⟨τ, h1, h2, h3⟩ => h ⟨τ, h1, ?_, ?_⟩)) (fun y ry => ?_)
          · exact (rx.sat τ h1).2 ⟨h2, ((hol τ).1 h3).1⟩
          · have := ((hol τ).1 h3).2
            omega
          · refine .ok ⟨rx.frame.trans ry.frame, by rw [← sz]; exact ry.range,
              fun a b ha hb => Int.le_trans (rx.mono a b ha hb) (ry.mono a b (by omega) (by omega)), by simp,
              fun h => (by rcases h with h | h <;> cases h), fun h => (by cases h), fun _ τ hτ => ?_⟩
            have q := ry.sat τ (by rw [sz]; exact hτ)
            rw [sz, rx.sat τ hτ] at q
            rw [q, hol, and_assoc]
            constructor
            · rintro ⟨h1, h2, h3⟩
              exact ⟨h1, h2, by omega⟩
            · rintro ⟨h1, h2, h3⟩
              exact ⟨h1, h2, by omega⟩
        · rw [if_neg c3]
          refine .ok ⟨rx.frame, rx.range, rx.mono, by simp, fun h => (by rcases h with h | h <;> cases h), fun h => (by cases h),
            fun _ τ hτ => ?_⟩
          have q := rx.sat τ hτ
          constructor
          · intro h
            have h' := h _ hd _ hs
            obtain ⟨h1, h2⟩ := q.1 h
            refine ⟨h1, (hol τ).2 ⟨h2, ?_⟩⟩
            simp only at h'
            omega
          · rintro ⟨h1, h2⟩
            exact q.2 ⟨h1, ((hol τ).1 h2).1⟩

/-! ## Global propagation -/

theorem gpRow_ded {g x : Graph} (hv : Valid g) (d : Ded g x) {k i : Nat} (hk : k < g.size) (hi : i < g.size) :
    Safe (Ded g) (NoSol g) (x.gpRow k i) := by
  unfold Graph.gpRow
  refine Safe.foldlM d (fun z b hb dz => ?_)
  have hb' : b < g.size := by rw [← d.frame.shape.size]; exact List.mem_range.1 hb
  refine (lower_ded hv dz hi hk).bind (fun a la => ?_)
  refine (lower_ded hv dz hk hb').bind (fun a' la' => ?_)
  exact (tvAdd_ded hi hk hb' la la').bind (fun val lval => relax_ded hv dz hi hb' lval)

/-- a result of `global_propagation` -/
structure GpAny (g : Graph) (p : Graph × Outcome) : Prop where
  out : p.2 = .propagated ∨ p.2 = .fatal
  ok : p.2 = .propagated → Ded g p.1
  bad : p.2 = .fatal → p.1.size = 0 ∧ NoSol g .assertFail

theorem gp_any {g : Graph} (hv : Valid g) (hg : SmallMat INF g.size (mat g)) :
    Safe (GpAny g) (NoSol g) g.globalPropagation := by
  rw [globalPropagation_def]
  refine Safe.bind (P := fun p : Graph × Bool => (p.2 = false → Ded g p.1) ∧
    (p.2 = true → p.1.size = 0 ∧ NoSol g .assertFail)) ?_ (fun p hp => ?_)
  · refine Safe.foldlM ⟨fun _ => Ded.refl hg, fun h => by cases h⟩ (fun p k hk hp => ?_)
    have hk' := List.mem_range.1 hk
    refine Safe.foldlM hp (fun p i hi hp => ?_)
    have hi' := List.mem_range.1 hi
    unfold gpBody
    split
    · exact .ok hp
    · next c =>
      have fp := hp.1 (by cases h : p.2 with
        | true => exact absurd h c
        | false => rfl)
      refine (gpRow_ded hv fp hk' hi').bind (fun y dy => ?_)
      refine (lower_ded hv dy hi' hi').bind (fun v lv => ?_)
      split
      · next c =>
        refine .ok ⟨fun h => (by cases h), fun _ => ⟨rfl, fun ⟨τ, h1, h2⟩ => ?_⟩⟩
        have := lv.imp τ h1 h2
        have c' : 0 < v := by simpa [isStrictlyPositive] using c
        have : (0 : Int) < INF := by decide
        omega
      · exact .ok ⟨fun _ => dy, fun h => (by cases h)⟩
  · refine .ok ?_
    show GpAny g (p.1, _)
    cases h : p.2 with
    | true => exact ⟨Or.inr rfl, fun c => (by cases c), fun _ => hp.2 h⟩
    | false => exact ⟨Or.inl rfl, fun _ => hp.1 h, fun c => (by cases c)⟩

/-- a result of `extend` with several constraints: `n` instants, the constraints `P` -/
structure BatchPost (n : Nat) (P : (Nat → Int) → Prop) (p : Graph × Outcome) : Prop where
  fatal : p.2 = .fatal → p.1.size = 0 ∧ ¬ ∃ τ, Representable n τ ∧ P τ
  valid : Valid p.1
  size : p.2 ≠ .fatal → p.1.size = n
  range : p.2 ≠ .fatal → SmallMat INF n (mat p.1)
  sat : p.2 ≠ .fatal → ∀ τ, Representable n τ → (MSat n (mat p.1) τ ↔ P τ)

theorem gp_post {g : Graph} (hv : Valid g) (hg : SmallMat INF g.size (mat g)) {P : (Nat → Int) → Prop}
    (hP : ∀ τ, MSat g.size (mat g) τ ↔ P τ) :
    Safe (fun p => BatchPost g.size P p ∧ (p.2 = .propagated ∨ p.2 = .fatal) ∧ (p.2 = .propagated → Frame g p.1 ∧
      ∀ a b, a < g.size → b < g.size → mat g a b ≤ mat p.1 a b))
      (fun _ => ¬ ∃ τ, Representable g.size τ ∧ P τ) g.globalPropagation := by
  refine Safe.monoE ((gp_any hv hg).mono (fun p h => ?_)) (fun _ h ⟨τ, h1, h2⟩ => h ⟨τ, h1, (hP τ).2 h2⟩)
  have ok : p.2 ≠ .fatal → p.2 = .propagated := fun c => h.out.resolve_right c
  refine ⟨⟨fun c => ⟨(h.bad c).1, fun ⟨τ, h1, h2⟩ => (h.bad c).2 ⟨τ, h1, (hP τ).2 h2⟩⟩, ?_,
    fun c => (h.ok (ok c)).frame.shape.size, fun c => (h.ok (ok c)).range, fun c τ hτ => ?_⟩, h.out,
    fun c => ⟨(h.ok c).frame, (h.ok c).mono⟩⟩
  · rcases h.out with c | c
    · exact (h.ok c).frame.valid hv
    · exact valid_zero (h.bad c).1
  · rw [← hP]
    exact (h.ok (ok c)).sat hg hτ

theorem extend_any {g : Graph} (hv : Valid g) (hc : CleanMem g) (hg : SmallMat INF g.size (mat g)) {n : Nat} (hn2 : n ≤ 65535)
    {ks : List Constr} (hks : ∀ k ∈ ks, Batchable n INF k) {hint : Option Nat} (h0 : hint ≠ some 0) (h1 : hint ≠ some 1) :
    Safe (fun p => BatchPost (max g.size (needed ks)) (fun τ => MSat g.size (mat g) τ ∧ ∀ k ∈ ks, Holds τ k) p ∧
        (p.2 = .propagated ∨ p.2 = .fatal) ∧ (p.2 = .propagated → CleanMem p.1) ∧
        (p.2 = .propagated → (∀ i, i < g.size → 0 ≤ mat g i i) → ∀ i, i < p.1.size → 0 ≤ mat p.1 i i))
      (fun _ => ¬ ∃ τ, Representable (max g.size (needed ks)) τ ∧ MSat g.size (mat g) τ ∧ ∀ k ∈ ks, Holds τ k)
      (g.extend hint ks) := by
  have INF0 : (0 : Int) ≤ INF := by decide
  obtain ⟨g1, a1, a2, a3, a4, a5, a6, a7⟩ := insertAll_spec INF0 (Int.le_refl INF) ks g hv hc hg
    (fun k hk => (hks k hk).2.2.1)
    (fun k hk => by have := hks k hk; have := this.1; have := (hks k hk).2.1; omega)
  have hsat : ∀ τ, MSat g1.size (mat g1) τ ↔ MSat g.size (mat g) τ ∧ ∀ k ∈ ks, Holds τ k := by
    intro τ
    rw [a7]
    constructor
    · rintro ⟨x, y⟩
      exact ⟨x, fun k hk => (holds_bounds (Int.le_refl INF) (hks k hk) τ).2 (y k hk)⟩
    · rintro ⟨x, y⟩
      exact ⟨x, fun k hk => (holds_bounds (Int.le_refl INF) (hks k hk) τ).1 (y k hk)⟩
  unfold Graph.extend
  rw [if_neg h0, if_neg h1, a1, ok_bind, ← a2]
  refine (gp_post a3 a5 hsat).mono (fun p h => ⟨h.1, h.2.1, fun c => (h.2.2 c).1.clean a4, fun c z i hi => ?_⟩)
  have hi' : i < g1.size := by rw [← (h.2.2 c).1.shape.size]; exact hi
  exact Int.le_trans (a6 z i hi') ((h.2.2 c).2 i i hi' hi')

/-! ## Merging -/

theorem merge_one {g h : Graph} (hg : Valid g) (hl : h.size ≤ g.size) (ht : Tidy h)
    (zg : ∀ i, i < g.size → 0 ≤ mat g i i) (sg : SmallMat INF g.size (mat g)) (sh : SmallMat INF h.size (mat h))
    {u : Outcome} (hu : u ≠ .fatal) :
    Safe (fun p => BatchPost g.size (fun τ => MSat g.size (mat g) τ ∧ MSat h.size (mat h) τ) p ∧
        (p.2 = u ∨ p.2 = .propagated ∨ p.2 = .fatal) ∧ (p.2 = .unchanged → p.1 = g) ∧ (p.2 ≠ .fatal → Tidy g → Tidy p.1) ∧
        (p.2 ≠ .fatal → ∀ i, i < g.size → 0 ≤ mat p.1 i i))
      (fun _ => ¬ ∃ τ, Representable g.size τ ∧ MSat g.size (mat g) τ ∧ MSat h.size (mat h) τ)
      (if (Graph.zipMax g.data h.data).2 then Graph.globalPropagation { g with data := (Graph.zipMax g.data h.data).1 }
        else .ok ({ g with data := (Graph.zipMax g.data h.data).1 }, u)) := by
  have hth := tidy_iff.1 ht
  have INF0 : (0 : Int) < INF := by decide
  have small : ∀ {x : Int}, Small INF x → -INF ≤ x := fun h => by unfold Small at h; omega
  have tdy : Tidy g → Tidy { g with data := (Graph.zipMax g.data h.data).1 } := fun t => (merge_big hg hl).2.2 t ht
  have hv' : Valid { g with data := (Graph.zipMax g.data h.data).1 } := (merge_big hg hl).1
  have hm : ∀ i j, i < g.size → j < g.size →
      mat { g with data := (Graph.zipMax g.data h.data).1 } i j = max (mat g i j) (mat h i j) := fun i j hi hj => by
    rw [zip_mat (small (sg i hi j hj)), if_pos (hg.ix_lt hi hj)]
  have hsm : SmallMat INF g.size (mat { g with data := (Graph.zipMax g.data h.data).1 }) := by
    intro i hi j hj
    have s1 := sg i hi j hj
    rw [hm i j hi hj]
    by_cases c : i < h.size ∧ j < h.size
    · have s2 := sh i c.1 j c.2
      unfold Small at *
      omega
    · have := hth i j (by omega)
      unfold Small at *
      omega
  have hsat : ∀ τ, MSat g.size (mat { g with data := (Graph.zipMax g.data h.data).1 }) τ ↔
      MSat g.size (mat g) τ ∧ MSat h.size (mat h) τ := by
    intro τ
    constructor
    · intro t
      refine ⟨fun i hi j hj => ?_, fun i hi j hj => ?_⟩
      · have a := t i hi j hj
        have s1 := small (sg i hi j hj)
        rw [hm i j hi hj] at a
        omega
      · have a := t i (by omega) j (by omega)
        have s2 := small (sh i hi j hj)
        rw [hm i j (by omega) (by omega)] at a
        omega
    · rintro ⟨t1, t2⟩ i hi j hj
      rw [hm i j hi hj]
      have a := t1 i hi j hj
      by_cases c : i < h.size ∧ j < h.size
      · have b := t2 i c.1 j c.2
        omega
      · have := hth i j (by omega)
        by_cases e : i = j
        · subst e
          have := zg i hi
          omega
        · omega
  cases hp : (Graph.zipMax g.data h.data).2 with
  | true =>
    rw [if_pos rfl]
    refine (gp_post hv' hsm hsat).mono (fun p h => ⟨h.1, Or.inr h.2.1, fun c => ?_, fun c t => ?_, fun c i hi => ?_⟩)
    · rcases h.2.1 with d | d <;> rw [c] at d <;> cases d
    · exact (h.2.2 (h.2.1.resolve_right c)).1.tidy (tdy t)
    · have m := (h.2.2 (h.2.1.resolve_right c)).2 i i hi hi
      rw [hm i i hi hi] at m
      have := zg i hi
      omega
  | false =>
    rw [if_neg (by simp)]
    obtain ⟨e1, e2⟩ := zipMax_same g.data h.data hp
    refine .ok ⟨⟨fun c => absurd c hu, hv', fun _ => rfl, fun _ => hsm, fun _ τ _ => hsat τ⟩, Or.inl rfl, fun _ => ?_,
      fun _ t => tdy t, fun _ i hi => ?_⟩
    · simp only [e1]
    · simp only
      rw [hm i i hi hi]
      have := zg i hi
      omega

end Chrono
