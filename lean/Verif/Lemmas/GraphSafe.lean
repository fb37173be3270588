import Verif.Lemmas.GraphBatch
import Verif.Lemmas.Hoare

/-!
# Index safety of the operations on graphs, whatever the bounds are
-/

set_option linter.unusedSimpArgs false

namespace Chrono
open Spec

/-- only cells of the instants of the graph have been written -/
structure Frame (g x : Graph) : Prop where
  shape : Shape g x
  off : ∀ a b, (g.size ≤ a ∨ g.size ≤ b) → mat x a b = mat g a b

theorem Frame.refl (g : Graph) : Frame g g := ⟨Shape.refl g, fun _ _ _ => rfl⟩
theorem Frame.trans {a b c : Graph} (h1 : Frame a b) (h2 : Frame b c) : Frame a c :=
  ⟨h1.shape.trans h2.shape, fun i j h => by
    rw [h2.off i j (by rw [h1.shape.size]; exact h), h1.off i j h]⟩
theorem Frame.valid {g x : Graph} (h : Frame g x) (hv : Valid g) : Valid x := h.shape.valid hv
theorem Frame.clean {g x : Graph} (h : Frame g x) (hc : CleanMem g) : CleanMem x := h.shape.clean h.off hc
theorem Frame.tidy {g x : Graph} (h : Frame g x) (ht : Tidy g) : Tidy x := h.shape.tidy h.off ht

theorem Frame.put {g : Graph} (hv : Valid g) {i j : Nat} (hi : i < g.size) (hj : j < g.size) (v : Int) :
    Frame g (put g i j v) := by
  refine ⟨⟨rfl, put_len g i j v⟩, fun a b h => ?_⟩
  rw [mat_put v (hv.ix_lt hi hj), if_neg (by omega)]

/-- the only panic allowed: the sum of opposite infinities -/
abbrev OnlyAssert (e : Panic) : Prop := e = .assertFail

theorem tvAdd_safe (a b : Int) : Safe (fun _ => True) OnlyAssert (tvAdd a b) := by
  unfold tvAdd
  split
  · split
    · exact .error rfl
    · exact .ok trivial
  · split
    · split
      · exact .error rfl
      · exact .ok trivial
    · split <;> exact .ok trivial

theorem lower_safe {g x : Graph} (hv : Valid g) (f : Frame g x) {i j : Nat} (hi : i < g.size) (hj : j < g.size) :
    Safe (fun _ => True) OnlyAssert (x.lower i j) :=
  Safe.of_eq (lower_eq (f.valid hv) (by rw [f.shape.size]; exact hi) (by rw [f.shape.size]; exact hj)) trivial

theorem set_safe {g x : Graph} (hv : Valid g) (f : Frame g x) {i j : Nat} (hi : i < g.size) (hj : j < g.size) (v : Int) :
    Safe (Frame g) OnlyAssert (x.setLower i j v) := by
  have hi' : i < x.size := by rw [f.shape.size]; exact hi
  have hj' : j < x.size := by rw [f.shape.size]; exact hj
  exact Safe.of_eq (setLower_eq (f.valid hv) hi' hj' v) (f.trans (Frame.put (f.valid hv) hi' hj' v))

theorem relax_safe {g x : Graph} (hv : Valid g) (f : Frame g x) {i j : Nat} (hi : i < g.size) (hj : j < g.size) (v : Int) :
    Safe (Frame g) OnlyAssert (x.relax i j v) := by
  have hi' : i < x.size := by rw [f.shape.size]; exact hi
  have hj' : j < x.size := by rw [f.shape.size]; exact hj
  exact Safe.of_eq (relax_eq (f.valid hv) hi' hj' v) (f.trans (Frame.put (f.valid hv) hi' hj' _))

theorem plb_safe {g x : Graph} (hv : Valid g) (f : Frame g x) {io jo : Nat} (hi : io < g.size) (hj : jo < g.size) :
    Safe (Frame g) OnlyAssert (x.propagateLowerBound io jo) := by
  unfold Graph.propagateLowerBound
  refine (lower_safe hv f hi hj).bind (fun v _ => ?_)
  refine Safe.bind (P := Frame g) ?_ (fun y fy => ?_)
  · refine Safe.foldlM f (fun z b hb fz => ?_)
    have hb' : b < g.size := by rw [← f.shape.size]; exact List.mem_range.1 hb
    refine (lower_safe hv fz hb' hi).bind (fun a _ => ?_)
    exact (tvAdd_safe _ _).bind (fun val _ => relax_safe hv fz hb' hj val)
  · refine Safe.foldlM fy (fun z b hb fz => ?_)
    have hb' : b < g.size := by rw [← fy.shape.size]; exact List.mem_range.1 hb
    refine (lower_safe hv fz hb' hj).bind (fun a _ => ?_)
    refine Safe.foldlM fz (fun w c hc fw => ?_)
    have hc' : c < g.size := by rw [← fz.shape.size]; exact List.mem_range.1 hc
    refine (lower_safe hv fw hj hc').bind (fun a _ => ?_)
    exact (tvAdd_safe _ _).bind (fun val _ => relax_safe hv fw hb' hc' val)

/-- a result of an operation which is allowed to resize the graph -/
structure Next (g x : Graph) : Prop where
  valid : Valid x
  le : g.size ≤ x.size
  clean : CleanMem g → CleanMem x
  tidy : Tidy g → Tidy x

theorem Frame.next {g x : Graph} (h : Frame g x) (hv : Valid g) : Next g x :=
  ⟨h.valid hv, Nat.le_of_eq h.shape.size.symm, h.clean, h.tidy⟩

theorem Next.trans {a b c : Graph} (h1 : Next a b) (h2 : Next b c) : Next a c :=
  ⟨h2.valid, Nat.le_trans h1.le h2.le, fun h => h2.clean (h1.clean h), fun h => h2.tidy (h1.tidy h)⟩

theorem resize_next (g : Graph) {n : Nat} (hn : n ≤ 65535) :
    ∃ g', g.resize n = .ok g' ∧ g'.size = n ∧ Valid g' ∧ CleanMem g' ∧ Tidy g' := by
  obtain ⟨g', h1, h2, h3, -⟩ := resize_eq g hn
  have t : Tidy g' := tidy_of_len (by rw [h3, h2])
  exact ⟨g', h1, h2, ⟨by omega, by rw [h2, h3]; exact Nat.le_refl _⟩, tidy_clean t, t⟩

theorem chkU32_succ {m : Nat} (h : m < 4294967295) : chkU32 ((m : Int) + 1) = .ok (m + 1) := by
  rw [chkU32_ok (by omega) (by omega)]; congr 1

theorem propagate_safe {g : Graph} (hv : Valid g) {k : Constr} (hk : k.src < 65535 ∧ k.dst < 65535) :
    Safe (fun p : Graph × Outcome => Next g p.1) OnlyAssert (g.propagate k) := by
  unfold Graph.propagate
  split
  · exact .ok ((Frame.refl g).next hv)
  simp only
  split
  · next hs =>
    have hs' : g.size ≤ max k.src k.dst := hs
    rw [chkU32_succ (m := max k.src k.dst) (by omega), ok_bind]
    have hb : max k.src k.dst + 1 ≤ 65535 := by omega
    refine Exists.elim (resize_next g hb) (fun g' hr => ?_)
    have h1 := hr.1
    have h2 := hr.2.1
    have h3 := hr.2.2.1
    have h4 := hr.2.2.2.1
    have h5 := hr.2.2.2.2
    rw [h1, ok_bind]
    have n1 : Next g g' := ⟨h3, by omega, fun _ => h4, fun _ => h5⟩
    refine (set_safe h3 (Frame.refl _) (by omega) (by omega) _).bind (fun x fx => ?_)
    refine (set_safe h3 fx (by omega) (by omega) _).bind (fun y fy => ?_)
    exact .ok (n1.trans (fy.next h3))
  · next hs =>
    have hs' : ¬ g.size ≤ max k.src k.dst := hs
    have a1 : k.src < g.size := by omega
    have a2 : k.dst < g.size := by omega
    have f0 := Frame.refl g
    refine (lower_safe hv f0 a1 a2).bind (fun ij _ => ?_)
    refine (lower_safe hv f0 a2 a1).bind (fun ji _ => ?_)
    split
    · split
      · exact .ok (f0.next hv)
      · split
        · exact .ok (f0.next hv)
        · refine (set_safe hv f0 a2 a1 _).bind (fun x fx => ?_)
          refine (plb_safe hv fx a2 a1).bind (fun y fy => ?_)
          exact .ok (fy.next hv)
    · split
      · exact .ok (f0.next hv)
      · refine (set_safe hv f0 a1 a2 _).bind (fun x fx => ?_)
        refine (plb_safe hv fx a1 a2).bind (fun y fy => ?_)
        refine (lower_safe hv fy a2 a1).bind (fun ji _ => ?_)
        split
        · refine (set_safe hv fy a2 a1 _).bind (fun x fx => ?_)
          refine (plb_safe hv fx a2 a1).bind (fun y fy => ?_)
          exact .ok (fy.next hv)
        · exact .ok (fy.next hv)

theorem insert_safe {g : Graph} (hv : Valid g) {k : Constr} (hk : k.src < 65535 ∧ k.dst < 65535) :
    Safe (Next g) OnlyAssert (g.insert k) := by
  have main : ∀ x, Valid x → max k.src k.dst < x.size → Safe (Next x) OnlyAssert (do
      let l ← x.lower k.src k.dst
      let g ← if l < k.lower then x.setLower k.src k.dst k.lower else pure x
      let u ← g.lower k.dst k.src
      if u < tvNeg k.upper then g.setLower k.dst k.src (tvNeg k.upper) else return g) := by
    intro x hx hm
    have f0 := Frame.refl x
    have a1 : k.src < x.size := by omega
    have a2 : k.dst < x.size := by omega
    refine (lower_safe hx f0 a1 a2).bind (fun l _ => ?_)
    have tail : ∀ y, Frame x y → Safe (Next x) OnlyAssert (do
        let u ← y.lower k.dst k.src
        if u < tvNeg k.upper then y.setLower k.dst k.src (tvNeg k.upper) else return y) := by
      intro y fy
      refine (lower_safe hx fy a2 a1).bind (fun u _ => ?_)
      split
      · exact (set_safe hx fy a2 a1 _).mono (fun z fz => fz.next hx)
      · exact .ok (fy.next hx)
    simp only
    split
    · exact (set_safe hx f0 a1 a2 _).bind tail
    · exact tail x f0
  unfold Graph.insert
  simp only
  by_cases c : max k.src k.dst ≥ g.size
  · rw [if_pos c, chkU32_succ (m := max k.src k.dst) (by omega), ok_bind]
    have hb : max k.src k.dst + 1 ≤ 65535 := by omega
    refine Exists.elim (resize_next g hb) (fun g' hr => ?_)
    have h1 := hr.1
    have h2 := hr.2.1
    have h3 := hr.2.2.1
    have h4 := hr.2.2.2.1
    have h5 := hr.2.2.2.2
    rw [h1, ok_bind]
    exact (main g' h3 (by omega)).mono (fun x hx => Next.trans ⟨h3, by omega, fun _ => h4, fun _ => h5⟩ hx)
  · rw [if_neg c]
    exact main g hv (by omega)

theorem gpRow_safe {g x : Graph} (hv : Valid g) (f : Frame g x) {k i : Nat} (hk : k < g.size) (hi : i < g.size) :
    Safe (Frame g) OnlyAssert (x.gpRow k i) := by
  unfold Graph.gpRow
  refine Safe.foldlM f (fun z b hb fz => ?_)
  have hb' : b < g.size := by rw [← f.shape.size]; exact List.mem_range.1 hb
  refine (lower_safe hv fz hi hk).bind (fun a _ => ?_)
  refine (lower_safe hv fz hk hb').bind (fun a _ => ?_)
  exact (tvAdd_safe _ _).bind (fun val _ => relax_safe hv fz hi hb' val)

/-- a result of `global_propagation` -/
def GpPost (g : Graph) (p : Graph × Outcome) : Prop :=
  (p.2 ≠ .fatal → Frame g p.1) ∧ (p.2 = .fatal → p.1.size = 0)

theorem gp_safe {g : Graph} (hv : Valid g) : Safe (GpPost g) OnlyAssert g.globalPropagation := by
  rw [globalPropagation_def]
  refine Safe.bind (P := fun p : Graph × Bool => (p.2 = false → Frame g p.1) ∧ (p.2 = true → p.1.size = 0)) ?_
    (fun p hp => ?_)
  · refine Safe.foldlM ⟨fun _ => Frame.refl g, fun h => by cases h⟩ (fun p k hk hp => ?_)
    have hk' := List.mem_range.1 hk
    refine Safe.foldlM hp (fun p i hi hp => ?_)
    have hi' := List.mem_range.1 hi
    unfold gpBody
    split
    · exact .ok hp
    · next c =>
      have fp := hp.1 (by cases h : p.2 with
        | true => exact absurd h c
        | false => rfl)
      refine (gpRow_safe hv fp hk' hi').bind (fun y fy => ?_)
      refine (lower_safe hv fy hi' hi').bind (fun d _ => ?_)
      split
      · exact .ok ⟨fun h => (by cases h), fun _ => rfl⟩
      · exact .ok ⟨fun _ => fy, fun h => (by cases h)⟩
  · refine .ok ?_
    show GpPost g (p.1, _)
    unfold GpPost
    simp only
    cases h : p.2 with
    | true => exact ⟨fun c => absurd rfl c, fun _ => hp.2 h⟩
    | false => exact ⟨fun _ => hp.1 h, fun c => by cases c⟩


theorem zip_mat {g h : Graph} {i j : Nat} (hg : -INF ≤ mat g i j) :
    mat { g with data := (Graph.zipMax g.data h.data).1 } i j =
      if ix i j < g.data.length then max (mat g i j) (mat h i j) else -INF := by
  split
  · next c => exact zipMax_get _ _ _ c hg
  · next c => exact mat_oob (by simp only; rw [zipMax_len]; omega)

/-- a result of `merge`, or of `extend` -/
structure Post (g : Graph) (n : Nat) (C T : Prop) (p : Graph × Outcome) : Prop where
  valid : Valid p.1
  fatal : p.2 = .fatal → p.1.size = 0
  size : p.2 ≠ .fatal → n ≤ p.1.size
  clean : p.2 ≠ .fatal → C → CleanMem p.1
  tidy : p.2 ≠ .fatal → T → Tidy p.1

theorem valid_zero {g : Graph} (h : g.size = 0) : Valid g := by
  unfold Valid
  rw [h]
  exact ⟨by omega, by omega⟩

theorem GpPost.post {g x : Graph} {n : Nat} {C T : Prop} (hv : Valid x) (hn : n ≤ x.size) (hc : C → CleanMem x)
    (ht : T → Tidy x) {p : Graph × Outcome} (h : GpPost x p) : Post g n C T p := by
  by_cases c : p.2 = .fatal
  · exact ⟨valid_zero (h.2 c), h.2, fun d => absurd c d, fun d => absurd c d, fun d => absurd c d⟩
  · have f := h.1 c
    exact ⟨f.valid hv, h.2, fun _ => by rw [f.shape.size]; exact hn, fun _ q => f.clean (hc q), fun _ q => f.tidy (ht q)⟩

theorem extend_safe {g : Graph} (hv : Valid g) {hint : Option Nat} {ks : List Constr}
    (hk : ∀ k ∈ ks, k.src < 65535 ∧ k.dst < 65535) :
    Safe (Post g g.size (CleanMem g) (Tidy g)) OnlyAssert (g.extend hint ks) := by
  have same : Safe (Post g g.size (CleanMem g) (Tidy g)) OnlyAssert (.ok (g, .unchanged)) :=
    .ok ⟨hv, fun h => (by cases h), fun _ => Nat.le_refl _, fun _ q => q, fun _ q => q⟩
  unfold Graph.extend
  split
  · exact same
  · split
    · cases ks with
      | nil => exact same
      | cons k l =>
        have h := propagate_safe hv (hk k (by simp))
        show Safe _ _ (g.propagate k)
        rcases h.cases with ⟨⟨g', o⟩, e, n⟩ | ⟨er, e, n⟩
        · rw [e]
          exact .ok ⟨n.valid, fun c => absurd (by rw [e, show o = .fatal from c]) (propagate_not_fatal (g := g) (k := k)
            (g' := g')), fun _ => n.le, fun _ => n.clean, fun _ => n.tidy⟩
        · rw [e]; exact .error n
    · refine Safe.bind (P := Next g) ?_ (fun x nx => ?_)
      · refine Safe.foldlM ((Frame.refl g).next hv) (fun x k hk' nx => ?_)
        exact (insert_safe nx.valid (hk k hk')).mono (fun y ny => nx.trans ny)
      · exact (gp_safe nx.valid).mono (fun p hp => hp.post nx.valid nx.le nx.clean nx.tidy)

theorem merge_big {g h : Graph} (hg : Valid g) (hs : h.size ≤ g.size) :
    let x : Graph := { g with data := (Graph.zipMax g.data h.data).1 }
    Valid x ∧ (CleanMem g → CleanMem h → CleanMem x) ∧ (Tidy g → Tidy h → Tidy x) := by
  refine ⟨⟨hg.1, by simp only; rw [zipMax_len]; exact hg.2⟩, ?_, ?_⟩
  · intro cg ch i j hi hj hij ho
    have a := cg i j hi hj hij ho
    have b := ch i j hi hj hij (by simp only at ho; omega)
    rw [zip_mat (by rw [a]; exact Int.le_refl _), a, b]
    split
    · exact Int.max_self _
    · rfl
  · intro tg th
    rw [tidy_iff] at tg th ⊢
    intro i j ho
    have hz : (0 : Int) < INF := by decide
    have a := tg i j ho
    have b := th i j (by simp only at ho; omega)
    rw [zip_mat (by omega)]
    split <;> omega

theorem merge_safe {g h : Graph} (hg : Valid g) (hh : Valid h) :
    Safe (Post g (max g.size h.size) (CleanMem g ∧ CleanMem h) (Tidy g ∧ Tidy h)) OnlyAssert (g.merge h) := by
  have main : ∀ a b : Graph, ∀ o, o ≠ Outcome.fatal → Valid a → b.size ≤ a.size → max g.size h.size = a.size →
      (CleanMem g ∧ CleanMem h → CleanMem a ∧ CleanMem b) → (Tidy g ∧ Tidy h → Tidy a ∧ Tidy b) →
      Safe (Post g (max g.size h.size) (CleanMem g ∧ CleanMem h) (Tidy g ∧ Tidy h)) OnlyAssert
        (if (Graph.zipMax a.data b.data).2 then
          Graph.globalPropagation { a with data := (Graph.zipMax a.data b.data).1 }
        else .ok ({ a with data := (Graph.zipMax a.data b.data).1 }, o)) := by
    intro a b o ho va hs hm c t
    obtain ⟨v, mc, mt⟩ := merge_big va hs
    split
    · exact (gp_safe v).mono (fun p hp => hp.post v (by show _ ≤ a.size; omega) (fun q => mc (c q).1 (c q).2)
        (fun q => mt (t q).1 (t q).2))
    · exact .ok ⟨v, fun c => absurd c ho, fun _ => by show _ ≤ a.size; omega, fun _ q => mc (c q).1 (c q).2,
        fun _ q => mt (t q).1 (t q).2⟩
  unfold Graph.merge
  split
  next x1 x2 x3 e =>
  by_cases c : g.size < h.size
  · rw [if_pos c] at e
    cases e
    exact main h g .propagated (by decide) hh (by omega) (by omega) (fun q => ⟨q.2, q.1⟩) (fun q => ⟨q.2, q.1⟩)
  · rw [if_neg c] at e
    cases e
    exact main g h .unchanged (by decide) hg (by omega) (by omega) (fun q => q) (fun q => q)

end Chrono
