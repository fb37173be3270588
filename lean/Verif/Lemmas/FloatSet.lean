import Verif.Props.Float
import Verif.Lemmas.SetArith

set_option linter.unusedSimpArgs false

/-!
# Intervals and sets scaled by floats
-/

namespace Chrono
open Spec Fl

/-- the image of an interval -/
def imgIv (F : FTy) (f : Fl) (i : Iv) : Iv :=
  if lt f zero then ⟨tvMulF F i.upper f, tvMulF F i.lower f⟩ else ⟨tvMulF F i.lower f, tvMulF F i.upper f⟩

theorem mulF_eq (F : FTy) (i : Iv) (f : Fl) : i.mulF F f =
    if (imgIv F f i).lower = INF ∨ (imgIv F f i).upper = -INF then .error .assertFail else .ok (imgIv F f i) := by
  unfold Iv.mulF imgIv
  by_cases h : lt f zero = true
  all_goals
    simp only [h, if_true, if_false, isFutureInfinite, isPastInfinite]
    repeat' split
    all_goals simp_all

theorem legal_of_mem {i : Iv} (h : WF i) {t : Int} (ht : InIv t i) : Legal t := by
  obtain ⟨h1, h2, h3, h4, h5⟩ := h
  unfold InIv at ht
  ticks

theorem legal_mulF (F : FTy) (f : Fl) {t : Int} (h : Legal t) : Legal (tvMulF F t f) := by
  obtain ⟨g, m, g0, gl, gz, e⟩ := tvMulF_form F f
  rw [e t h]
  have := gl t.natAbs
  unfold Legal
  split <;> omega

theorem img_spec (F : FTy) (f : Fl) {i : Iv} (h : WF i) :
    (imgIv F f i).lower ≤ (imgIv F f i).upper ∧ -INF ≤ (imgIv F f i).lower ∧ (imgIv F f i).upper ≤ INF ∧
    (∀ t, InIv t i → InIv (tvMulF F t f) (imgIv F f i)) ∧
    (∃ a, InIv a i ∧ (imgIv F f i).lower = tvMulF F a f) ∧ (∃ b, InIv b i ∧ (imgIv F f i).upper = tvMulF F b f) := by
  have hl : InIv i.lower i := ⟨Int.le_refl _, h.le⟩
  have hu : InIv i.upper i := ⟨h.le, Int.le_refl _⟩
  have kl := legal_mulF F f (legal_of_mem h hl)
  have ku := legal_mulF F f (legal_of_mem h hu)
  have m := fun t t' (a : InIv t i) (b : InIv t' i) (c : t ≤ t') =>
    C98_monotone F f t t' (legal_of_mem h a) (legal_of_mem h b) c
  unfold Legal at kl ku
  unfold imgIv
  by_cases c : lt f zero = true
  · simp only [if_pos c]
    refine ⟨(m _ _ hl hu h.le).2.1 (negF_iff.2 c), ku.1, kl.2, fun t ht => ⟨?_, ?_⟩, ⟨_, hu, rfl⟩, ⟨_, hl, rfl⟩⟩
    · exact (m _ _ ht hu ht.2).2.1 (negF_iff.2 c)
    · exact (m _ _ hl ht ht.1).2.1 (negF_iff.2 c)
  · simp only [if_neg c]
    refine ⟨(m _ _ hl hu h.le).1 (mt negF_iff.1 c), kl.1, ku.2, fun t ht => ⟨?_, ?_⟩, ⟨_, hl, rfl⟩, ⟨_, hu, rfl⟩⟩
    · exact (m _ _ hl ht ht.1).1 (mt negF_iff.1 c)
    · exact (m _ _ ht hu ht.2).1 (mt negF_iff.1 c)

theorem mulF_spec (F : FTy) (f : Fl) (i : Iv) (h : WF i) :
    (∀ j, i.mulF F f = .ok j → WF j ∧ (∀ t, InIv t i → InIv (tvMulF F t f) j) ∧
      ∃ a b, InIv a i ∧ InIv b i ∧ j.lower = tvMulF F a f ∧ j.upper = tvMulF F b f) ∧
    (∀ e, i.mulF F f = .error e → (∀ t, InIv t i → tvMulF F t f = INF) ∨ (∀ t, InIv t i → tvMulF F t f = -INF)) ∧
    ((∀ t, InIv t i → tvMulF F t f = INF) ∨ (∀ t, InIv t i → tvMulF F t f = -INF) →
      i.mulF F f = .error .assertFail) := by
  obtain ⟨h1, h2, h3, h4, ⟨a, ha, ea⟩, ⟨b, hb, eb⟩⟩ := img_spec F f h
  rw [mulF_eq]
  refine ⟨fun j hj => ?_, fun e he => ?_, fun hc => ?_⟩
  · split at hj
    · cases hj
    · injection hj with hj
      subst hj
      refine ⟨⟨h1, h2, h3, by omega, by omega⟩, h4, a, b, ha, hb, ea, eb⟩
  · split at he
    · rename_i c
      rcases c with c | c
      · left; intro t ht; have := h4 t ht; unfold InIv at this; omega
      · right; intro t ht; have := h4 t ht; unfold InIv at this; omega
    · cases he
  · rcases hc with c | c
    · rw [if_pos (Or.inl (by rw [ea]; exact c a ha))]
    · rw [if_pos (Or.inr (by rw [eb]; exact c b hb))]

theorem divF_eq (F : FTy) (i : Iv) (f : Fl) (h : WF i) : i.divF F f = i.mulF F (recip F f) ∨
    (f = .fin true 0 ∧ i.divF F f = if i = ⟨0, 0⟩ then .ok ⟨0, 0⟩ else .error .assertFail) ∨
    (i.divF F f = .ok ⟨0, 0⟩ ∧ i.mulF F (recip F f) = .ok ⟨0, 0⟩) := by
  have hl : InIv i.lower i := ⟨Int.le_refl _, h.le⟩
  have hu : InIv i.upper i := ⟨h.le, Int.le_refl _⟩
  have kl := legal_of_mem h hl
  have ku := legal_of_mem h hu
  by_cases c : lt f zero = lt (recip F f) zero
  · left
    simp only [Iv.divF, Iv.mulF, tvDivF, c]
  · right
    cases f with
    | nan => simp [recip, lt] at c
    | inf s =>
      right
      have z : ∀ t, Legal t → tvMulF F t (.fin s 0) = 0 := fun t ht => by
        rw [tvMulF_fin F ht, (mag_zero F 0).2]; simp
      constructor
      · simp only [Iv.divF, tvDivF, recip, z _ kl, z _ ku]; split <;> rfl
      · simp only [Iv.mulF, recip, z _ kl, z _ ku]; split <;> rfl
    | fin s k =>
      by_cases hk : k = 0
      · subst hk
        cases s
        · simp [recip, lt, zero] at c
        · left
          refine ⟨rfl, ?_⟩
          have e : lt (.fin true 0) zero = false := by decide
          simp only [Iv.divF, tvDivF, recip, e, if_true, tvMulF_inf F kl, tvMulF_inf F ku]
          have := h.le
          have z1 : isFutureInfinite INF = true := by decide
          have z2 : isFutureInfinite 0 = false := by decide
          have z3 : isFutureInfinite (-INF) = false := by decide
          have z4 : isPastInfinite (-INF) = true := by decide
          have z5 : isPastInfinite 0 = false := by decide
          rcases i with ⟨l, u⟩
          simp only at this
          by_cases hl0 : l < 0
          · have : l ≠ 0 := by omega
            simp [this, hl0, z1]
          · by_cases hu0 : 0 < u
            · have a1 : u ≠ 0 := by omega
              have a2 : ¬ u < 0 := by omega
              by_cases hl1 : l = 0
              · simp [hl1, a1, a2, z2, z4]
              · simp [hl1, hl0, a1, a2, z3, z4]
            · have e1 : l = 0 := by omega
              have e2 : u = 0 := by omega
              simp [e1, e2, z2, z5]
      · right
        simp only [recip, hk, if_false] at c ⊢
        have hz : pack F s (round F (2 ^ F.bias * 2 ^ F.bias) k) = .fin s 0 := by
          unfold pack at c ⊢
          split at c
          · rename_i hf
            rw [if_pos hf]
            generalize round F (2 ^ F.bias * 2 ^ F.bias) k = R at *
            congr 1
            cases s <;> simp [lt, zero] at c <;> omega
          · exfalso
            cases s <;> simp [lt, zero] at c <;> omega
        have z : ∀ t, Legal t → tvMulF F t (.fin s 0) = 0 := fun t ht => by
          rw [tvMulF_fin F ht, (mag_zero F 0).2]; simp
        rw [hz]
        constructor
        · simp only [Iv.divF, tvDivF, recip, hk, if_false, hz, z _ kl, z _ ku]; split <;> rfl
        · simp only [Iv.mulF, z _ kl, z _ ku]; split <;> rfl

/-- the images of the intervals of a set, in chronological order -/
def imgs (F : FTy) (s : TSet) (f : Fl) : List Iv :=
  if lt f zero then (s.map (imgIv F f)).reverse else s.map (imgIv F f)

theorem mapM_mulF {F : FTy} {f : Fl} : ∀ {s l : List Iv}, s.mapM (fun tw => tw.mulF F f) = .ok l →
    l = s.map (imgIv F f) ∧ ∀ i ∈ s, i.mulF F f = .ok (imgIv F f i)
  | [], l, h => by
    have : l = [] := by injection h with h; exact h.symm
    subst this; simp
  | x :: s, l, h => by
    rw [List.mapM_cons] at h
    have hx := mulF_eq F x f
    split at hx
    · rw [hx] at h; cases h
    · rw [hx] at h
      cases hm : s.mapM (fun tw => tw.mulF F f) with
      | error e => rw [hm] at h; cases h
      | ok l' =>
        rw [hm] at h
        injection h with h
        obtain ⟨e1, e2⟩ := mapM_mulF hm
        subst h
        refine ⟨by rw [e1]; rfl, fun i hi => ?_⟩
        rcases List.mem_cons.1 hi with rfl | hi
        · exact hx
        · exact e2 i hi

theorem imgs_spec {F : FTy} {f : Fl} {s l : TSet} (hs : Canon s) (h : s.mapM (fun tw => tw.mulF F f) = .ok l) :
    (if lt f zero then l.reverse else l) = imgs F s f ∧ (∀ y ∈ imgs F s f, WF y) ∧
    (imgs F s f).Pairwise (fun a b => a.upper ≤ b.lower) ∧
    ∀ q, InSet q (imgs F s f) ↔ ∃ i ∈ s, ∃ a b, InIv a i ∧ InIv b i ∧ tvMulF F a f ≤ q ∧ q ≤ tvMulF F b f := by
  obtain ⟨e1, e2⟩ := mapM_mulF h
  have hmem : ∀ y, y ∈ imgs F s f ↔ ∃ i ∈ s, imgIv F f i = y := by
    intro y
    unfold imgs
    split <;> simp
  have hwf : ∀ y ∈ imgs F s f, WF y := by
    intro y hy
    obtain ⟨i, hi, rfl⟩ := (hmem y).1 hy
    exact ((mulF_spec F f i (hs.wf i hi)).1 _ (e2 i hi)).1
  refine ⟨by rw [e1]; rfl, hwf, ?_, fun q => ?_⟩
  · have key : ∀ a b : Iv, a ∈ s → b ∈ s → a.upper + 1 < b.lower →
        (lt f zero = false → (imgIv F f a).upper ≤ (imgIv F f b).lower) ∧
        (lt f zero = true → (imgIv F f b).upper ≤ (imgIv F f a).lower) := by
      intro a b ha hb hab
      have la := legal_of_mem (hs.wf a ha) ⟨(hs.wf a ha).le, Int.le_refl _⟩
      have lb := legal_of_mem (hs.wf b hb) ⟨Int.le_refl _, (hs.wf b hb).le⟩
      have m := C98_monotone F f a.upper b.lower la lb (by omega)
      constructor
      · intro c
        simp only [imgIv, c]
        exact m.1 (by rw [negF_iff, c]; decide)
      · intro c
        simp only [imgIv, c]
        exact m.2.1 (negF_iff.2 c)
    have hg := hs.gap
    unfold imgs
    cases c : lt f zero
    · simp only [Bool.false_eq_true, if_false]
      rw [List.pairwise_map]
      exact List.Pairwise.imp_of_mem (fun ha hb h => (key _ _ ha hb h).1 c) hg
    · simp only [if_true]
      rw [List.pairwise_reverse, List.pairwise_map]
      exact List.Pairwise.imp_of_mem (fun ha hb h => (key _ _ ha hb h).2 c) hg
  · constructor
    · rintro ⟨y, hy, hq⟩
      obtain ⟨i, hi, rfl⟩ := (hmem y).1 hy
      obtain ⟨-, -, -, -, ⟨a, ha, ea⟩, ⟨b, hb, eb⟩⟩ := img_spec F f (hs.wf i hi)
      exact ⟨i, hi, a, b, ha, hb, by rw [← ea]; exact hq.1, by rw [← eb]; exact hq.2⟩
    · rintro ⟨i, hi, a, b, ha, hb, h1, h2⟩
      obtain ⟨-, -, -, h4, -, -⟩ := img_spec F f (hs.wf i hi)
      have g1 := h4 a ha
      have g2 := h4 b hb
      unfold InIv at g1 g2
      exact ⟨_, (hmem _).2 ⟨i, hi, rfl⟩, by omega, by omega⟩

theorem checkJoined_spec {l : List Iv} (hw : ∀ y ∈ l, WF y) (hp : l.Pairwise (fun a b => a.upper ≤ b.lower)) :
    Canon (TSet.checkJoined l) ∧ ∀ q, InSet q (TSet.checkJoined l) ↔ InSet q l := by
  cases l with
  | nil => exact ⟨Canon_nil, fun q => Iff.rfl⟩
  | cons x xs =>
    rw [List.pairwise_cons] at hp
    obtain ⟨h1, -, h3⟩ := checkJoined_go x xs (hw x (by simp)) (fun y hy => by
      have h := hw y (by simp [hy])
      have h' := hp.1 y hy
      have h'' := hw x (by simp)
      obtain ⟨a1, a2, a3, a4, a5⟩ := h
      obtain ⟨b1, b2, b3, b4, b5⟩ := h''
      refine ⟨⟨a1, a2, a3, a4, a5⟩, ?_⟩
      unfold Date; omega) hp.1 hp.2
    exact ⟨h1, fun q => by rw [TSet.checkJoined, h3, InSet_cons]⟩

/-- the points of `r` are those between the products by `f` of two points of an interval of `s` -/
def Products (F : FTy) (s : TSet) (f : Fl) (r : TSet) : Prop :=
  ∀ q, InSet q r ↔ ∃ i ∈ s, ∃ a b, InIv a i ∧ InIv b i ∧ tvMulF F a f ≤ q ∧ q ≤ tvMulF F b f

theorem mulF_cases {F : FTy} {f : Fl} {s r : TSet} (hs : Canon s) {g : Bool}
    (h : (do
      let inners ← s.mapM (fun tw => tw.mulF F f)
      let inners := if Fl.lt f Fl.zero then inners.reverse else inners
      return if g then TSet.checkJoined inners else inners : Res TSet) = .ok r) :
    Products F s f r ∧ (g = true → Canon r) := by
  cases hm : s.mapM (fun tw => tw.mulF F f) with
  | error e => rw [hm] at h; cases h
  | ok l =>
    rw [hm] at h
    injection h with h
    obtain ⟨e1, e2, e3, e4⟩ := imgs_spec hs hm
    simp only [e1] at h
    subst h
    obtain ⟨c1, c2⟩ := checkJoined_spec e2 e3
    cases g
    · exact ⟨e4, fun h => by cases h⟩
    · exact ⟨fun q => (c2 q).trans (e4 q), fun _ => c1⟩

end Chrono
