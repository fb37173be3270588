import Verif.Lemmas.GraphSem

/-!
# The propagation of a bound returns on every graph with small bounds, consistent or not
-/

set_option linter.unusedSimpArgs false

namespace Chrono
open Spec

theorem plb_returns {g : Graph} (hv : Valid g) {B : Int} (hS : SmallMat B g.size (mat g)) {io jo : Nat} (hio : io < g.size) (hjo : jo < g.size)
    (hne : io ≠ jo) (hB0 : 0 ≤ B) (hB : 6 * B < INF) : ∃ g', g.propagateLowerBound io jo = .ok g' := by
  unfold Graph.propagateLowerBound
  rw [lower_eq hv hio hjo, ok_bind]
  have sv := hS io hio jo hjo
  obtain ⟨g1, h1, s1, m1⟩ := col_loop hv hjo (fun i g' => do
      let a ← g'.lower i io
      tvAdd a (mat g io jo)) (fun i => oadd (mat g i io) (mat g io jo)) (by
    intro i g' hi hs hm'
    have hsz := hs.size
    rw [lower_eq (hs.valid hv) (by omega) (by omega), ok_bind, hm' i io, if_neg (by omega)]
    exact tvAdd_small (hS i hi io hio) sv (by omega) (by omega) (by omega))
  have fold1 : (List.range g.size).foldlM (fun g' i => do
      let a ← g'.lower i io
      let val ← tvAdd a (mat g io jo)
      g'.relax i jo val) g = .ok g1 := by
    rw [← h1]
    congr 1
    funext g' i
    rw [bind_assoc]
  rw [fold1, ok_bind]
  have S1 : SmallMat (2 * B) g.size (mat g1) := by
    intro a ha b hb
    rw [m1 a b]
    split
    · exact max_small ((hS a ha b hb).mono (by omega)) ((oadd_small (hS a ha io hio) sv).mono (by omega))
    · exact (hS a ha b hb).mono (by omega)
  have sz1 := s1.size
  have key : ∃ g', (List.range g1.size).foldlM (fun g' j => do
      let jJo ← g'.lower j jo
      (List.range g'.size).foldlM (fun g'' i => do
        let b ← g''.lower jo i
        let val ← tvAdd jJo b
        g''.relax j i val) g') g1 = .ok g' ∧ (Shape g1 g' ∧ (∀ a b, g1.size ≤ a → a < g.size → b < g.size → Small (2 * B) (mat g' a b)) ∧
          ∀ b, b < g.size → Small (4 * B) (mat g' jo b)) := by
    refine foldlM_range (fun j g' => Shape g1 g' ∧ (∀ a b, j ≤ a → a < g.size → b < g.size → Small (2 * B) (mat g' a b)) ∧
      ∀ b, b < g.size → Small (4 * B) (mat g' jo b)) ?_ ?_
    · exact ⟨Shape.refl _, fun a b _ ha hb => S1 a ha b hb, fun b hb => (S1 jo hjo b hb).mono (by omega)⟩
    · rintro j x hj ⟨sx, lx, rx⟩
      have szx := sx.size
      have vx : Valid x := sx.valid (s1.valid hv)
      have hj' : j < x.size := by omega
      have hjo' : jo < x.size := by omega
      rw [lower_eq vx hj' hjo', ok_bind]
      have sc := lx j jo (Nat.le_refl _) (by omega) hjo
      obtain ⟨y, h2, s2, m2⟩ := row_loop vx hj' (fun i g'' => do
          let b ← g''.lower jo i
          tvAdd (mat x j jo) b) (fun i => oadd (mat x j jo) (mat x jo i)) (by
        intro i z hi hs hm'
        have hsz := hs.size
        rw [lower_eq (hs.valid vx) (by omega) (by omega), ok_bind, hm' jo i, if_neg (by omega)]
        exact tvAdd_small sc (rx i (by omega)) (by omega) (by omega) (by omega))
      refine ⟨y, ?_, sx.trans s2, ?_, ?_⟩
      · rw [← h2]
        congr 1
        funext g' i
        rw [bind_assoc]
      · intro a b h3 ha hb
        rw [m2 a b, if_neg (by omega)]
        exact lx a b (by omega) ha hb
      · intro b hb
        rw [m2 jo b]
        split
        · rename_i c
          have l1 := lx jo b (by omega) hjo hb
          exact max_small (rx b hb) ((oadd_small sc l1).mono (by omega))
        · exact rx b hb
  obtain ⟨g', h3, -⟩ := key
  exact ⟨g', h3⟩

end Chrono
