import Verif.Spec.Pair
import Verif.Props.SchedPieces
import Verif.Lemmas.SchedConvex

set_option linter.unusedSimpArgs false

/-!
# Sets of dates asked for one instant, or for two (C152)
-/

namespace Chrono
open Spec

/-! ## Helper lemmas -/

theorem sat_moved {τ : Nat → Int} {g : Graph} (h : Sat τ g) (d : Int) : Sat (fun i => τ i + d) g := by
  intro i j hi hj
  obtain ⟨s, e, hin⟩ := h i j hi hj
  exact ⟨s, e, by rwa [show τ j + d - (τ i + d) = τ j - τ i by omega]⟩

theorem call_pure {dbg : Bool} {s : Sched} (hv : Valid s.graph) (hz : ZeroDiag s.graph) (hs : Spanned s.graph) {B W V : Int} (hB : 0 ≤ B)
    (hg : Within B s.graph) (a2 : LooseSched s) (a3 : WithinSched V s) (hWV : W ≤ V) (hW : V + B < INF)
    {c : Call} (hc : c.Ok s.graph.size W) {s' : Sched} (hr : c.run dbg s = .ok (s', .propagated)) (hp : Pure s' c.instant) :
    (∀ t, Slot s' c.instant t ↔ Slot s c.instant t ∧ c.Allows t) ∧
    ∀ j, j < s.graph.size → j ≠ c.instant → ∃ sp, s.graph.timespan c.instant j = .ok sp ∧
      ∀ t, Slot s' j t ↔ Slot s j t ∧ ∃ a, Slot s' c.instant a ∧ InExt (t - a) sp := by
  obtain ⟨r, e, h1, h2⟩ := call_pieces hv hz hs hB hg a2 a3 hWV hW hc hr
  obtain ⟨r', e', hne, hx⟩ := hp
  rw [e] at e'
  cases e'
  refine ⟨h1, fun j hj hji => ?_⟩
  obtain ⟨sp, es, h3⟩ := h2 hne j hj hji
  refine ⟨sp, es, fun t => (h3 t).trans (and_congr_right fun _ => ⟨?_, Or.inl⟩)⟩
  rintro (h | ⟨d, hd, -⟩)
  · exact h
  · have := hx _ hd
    simp only at this
    omega

theorem callAll_sub {dbg : Bool} : ∀ (calls : List Call) {s s' : Sched} {acc : List Call}, callAll dbg s calls = .ok (s', acc) →
    ∀ c ∈ acc, c ∈ calls
  | [], s, s', acc, h, c, hc => by cases h; exact hc
  | d :: calls, s, s', acc, h, c, hc => by
    obtain ⟨⟨s1, o⟩, -, h⟩ := bind_ok h
    obtain ⟨⟨s2, acc2⟩, h2, h⟩ := bind_ok h
    have ih := callAll_sub calls h2
    cases h
    split at hc
    · exact List.mem_cons_of_mem _ (ih c hc)
    · rcases List.mem_cons.1 hc with rfl | hc
      · simp
      · exact List.mem_cons_of_mem _ (ih c hc)

/-- every date of the other instants is at an allowed delay from a date of `i` -/
def HubOf (s : Sched) (i : Nat) : Prop := Pure s i → ∀ j, j < s.graph.size → j ≠ i → ∀ t, Slot s j t →
  ∃ sp a, s.graph.timespan i j = .ok sp ∧ Slot s i a ∧ InExt (t - a) sp

theorem hub_new {g : Graph} (hv : Valid g) (hs : Spanned g) (i : Nat) : HubOf (Sched.new g) i := by
  rintro ⟨w, e, -⟩ j hj hji t -
  have hi : i < g.size := by
    have := (List.getElem?_eq_some_iff.1 e).1
    simpa [Sched.new] using this
  have wf := hs i j hi hj _ (timespan_eq hv hi hj)
  obtain ⟨d, hd⟩ : ∃ d, InExt d ⟨mat g i j, -mat g j i⟩ := by
    obtain ⟨k1, k2, k3, k4, k5⟩ := wf
    simp only at k1 k2 k3 k4 k5
    by_cases c : mat g i j = -INF
    · exact ⟨-mat g j i, Or.inl c, Or.inr (Int.le_refl _)⟩
    · exact ⟨mat g i j, Or.inr (Int.le_refl _), Or.inr k1⟩
  exact ⟨_, t - d, timespan_eq hv hi hj, new_slot g hi _, by rwa [show t - (t - d) = d by omega]⟩

theorem hub_calls {dbg : Bool} {B W : Int} (hB0 : 0 ≤ B) {i : Nat} : ∀ (calls : List Call) {s : Sched} {V : Int}, Valid s.graph →
    ZeroDiag s.graph → Spanned s.graph → LooseSched s → Within B s.graph → WithinSched V s → W ≤ V →
    V + calls.length * B < INF → (∀ c ∈ calls, c.Ok s.graph.size W) → (∀ c ∈ calls, c.instant = i) → HubOf s i →
    ∀ {s' acc}, callAll dbg s calls = .ok (s', acc) → HubOf s' i
  | [], s, V, _, _, _, hl, _, hV, _, _, _, _, hh, s', acc, h => by
    cases h
    exact hh
  | c :: calls, s, V, hv, hz, hs, hl, hg, hV, hWV, hB, hok, hci, hh, s', acc, h => by
    have e : V + ((c :: calls).length : Int) * B = V + B + calls.length * B := by
      rw [List.length_cons, Int.natCast_add, Int.add_mul]; omega
    rw [e] at hB
    have hn : 0 ≤ (calls.length : Int) * B := Int.mul_nonneg (by omega) hB0
    rcases call_loose dbg hv hz hs hl hg hV hWV (by omega) hB0 (hok c (by simp)) with
      ⟨s1, o, a1, a2, a3, a4, a5, a6, -⟩ | ⟨-, h0⟩
    · simp only [callAll, a1, ok_bind] at h
      obtain ⟨⟨s2, acc2⟩, b1, b2⟩ := bind_ok h
      cases b2
      refine hub_calls hB0 (W := W) calls (s := s1) (V := V + B) (by rw [a2]; exact hv) (by rw [a2]; exact hz)
        (by rw [a2]; exact hs) a3 (by rw [a2]; exact hg) a4 (by omega) hB (fun c' hc' => by rw [a2]; exact hok c' (by simp [hc']))
        (fun c' hc' => hci c' (by simp [hc'])) ?_ b1
      cases o with
      | unchanged => rw [a6 (Or.inr rfl)]; exact hh
      | recovered => rw [a6 (Or.inl rfl)]; exact hh
      | fatal => exact absurd rfl a5
      | propagated =>
        intro hp j hj hji t ht
        have ei := hci c (by simp)
        subst ei
        obtain ⟨-, k⟩ := call_pure hv hz hs hB0 hg hl hV hWV (by omega) (hok c (by simp)) a1 hp
        rw [a2] at hj ⊢
        obtain ⟨sp, k1, k2⟩ := k j hj hji
        obtain ⟨-, a, k3, k4⟩ := (k2 t).1 ht
        exact ⟨sp, a, k1, k3, k4⟩
    · obtain ⟨q, h1, -⟩ := bind_ok h
      rw [h0] at h1
      cases h1

/-- each date of one of two instants is at an allowed delay from a date of the other one -/
def PairOf (s : Sched) : Prop := ∀ i j, i < s.graph.size → j < s.graph.size → i ≠ j → ∀ t, Slot s j t →
  ∃ sp a, s.graph.timespan i j = .ok sp ∧ Slot s i a ∧ InExt (t - a) sp

theorem pair_calls {dbg : Bool} {B W : Int} (hB0 : 0 ≤ B) : ∀ (calls : List Call) {s : Sched} {V : Int}, Valid s.graph →
    ZeroDiag s.graph → Spanned s.graph → LooseSched s → Within B s.graph → WithinSched V s → W ≤ V →
    V + calls.length * B < INF → (∀ c ∈ calls, c.Ok s.graph.size W) → s.graph.size = 2 → callsPure dbg s calls → PairOf s →
    ∀ {s' acc}, callAll dbg s calls = .ok (s', acc) → PairOf s'
  | [], s, V, _, _, _, hl, _, hV, _, _, _, _, _, hh, s', acc, h => by
    cases h
    exact hh
  | c :: calls, s, V, hv, hz, hs, hl, hg, hV, hWV, hB, hok, h2, hpu, hh, s', acc, h => by
    have e : V + ((c :: calls).length : Int) * B = V + B + calls.length * B := by
      rw [List.length_cons, Int.natCast_add, Int.add_mul]; omega
    rw [e] at hB
    have hn : 0 ≤ (calls.length : Int) * B := Int.mul_nonneg (by omega) hB0
    rcases call_loose dbg hv hz hs hl hg hV hWV (by omega) hB0 (hok c (by simp)) with
      ⟨s1, o, a1, a2, a3, a4, a5, a6, -⟩ | ⟨-, h0⟩
    · simp only [callAll, a1, ok_bind] at h
      obtain ⟨⟨s2, acc2⟩, b1, b2⟩ := bind_ok h
      cases b2
      obtain ⟨hp, hpu⟩ := hpu s1 o a1
      refine pair_calls hB0 (W := W) calls (s := s1) (V := V + B) (by rw [a2]; exact hv) (by rw [a2]; exact hz)
        (by rw [a2]; exact hs) a3 (by rw [a2]; exact hg) a4 (by omega) hB (fun c' hc' => by rw [a2]; exact hok c' (by simp [hc']))
        (by rw [a2]; exact h2) hpu ?_ b1
      cases o with
      | unchanged => rw [a6 (Or.inr rfl)]; exact hh
      | recovered => rw [a6 (Or.inl rfl)]; exact hh
      | fatal => exact absurd rfl a5
      | propagated =>
        intro i j hi hj hij t ht
        rw [a2] at hi hj ⊢
        obtain ⟨k0, k⟩ := call_pure hv hz hs hB0 hg hl hV hWV (by omega) (hok c (by simp)) a1 (hp rfl)
        have hci : c.instant < s.graph.size := by
          have := hok c (by simp)
          cases c <;> exact this.1
        by_cases d : i = c.instant
        · subst d
          obtain ⟨sp, k1, k2⟩ := k j hj (fun e => hij e.symm)
          obtain ⟨-, a, k3, k4⟩ := (k2 t).1 ht
          exact ⟨sp, a, k1, k3, k4⟩
        · have d' : j = c.instant := by omega
          subst d'
          obtain ⟨sp, a, q1, q2, q3⟩ := hh i _ hi hj hij t ((k0 t).1 ht).1
          obtain ⟨sp', k1, k2⟩ := k i hi hij
          refine ⟨sp, a, q1, (k2 a).2 ⟨q2, t, ht, ?_⟩, q3⟩
          rw [timespan_eq hv hi hj] at q1
          rw [timespan_eq hv hj hi] at k1
          cases q1; cases k1
          simp only [InExt] at q3 ⊢
          omega
    · obtain ⟨q, h1, -⟩ := bind_ok h
      rw [h0] at h1
      cases h1

theorem pair_new {g : Graph} (hv : Valid g) (hs : Spanned g) : PairOf (Sched.new g) := fun i j hi hj hij t ht =>
  hub_new hv hs i ⟨TSet.all, by simp [Sched.scheduling, Sched.new, List.getElem?_replicate]; exact hi, by decide, by decide⟩ j hj
    (fun e => hij e.symm) t ht

theorem pure_canon {s : Sched} (hl : LooseSched s) {i : Nat} (hp : Pure s i) :
    ∃ w, s.schedule[i]? = some w ∧ Canon w ∧ ∃ t, InExtSet t w := by
  obtain ⟨w, e, hne, hx⟩ := hp
  have lw := hl.2 w (List.mem_of_getElem? e)
  have cw : Canon w := ⟨fun x m => by
    obtain ⟨l1, l2, l3, l4, l5⟩ := lw.wf x m
    exact ⟨hx x m, l2, l3, l4, l5⟩, lw.gap⟩
  obtain ⟨x, m⟩ := List.exists_mem_of_ne_nil w hne
  refine ⟨w, e, cw, ?_⟩
  have := hx x m
  by_cases c : x.lower = -INF
  · exact ⟨x.upper, x, m, Or.inl c, Or.inr (Int.le_refl _)⟩
  · exact ⟨x.lower, x, m, Or.inr (Int.le_refl _), Or.inr this⟩

theorem retain_answer {s : Sched} {i : Nat} {w : Window} {si : TSet} (e : s.schedule[i]? = some si) {s' : Sched} {o : Outcome}
    (h : s.retain false i w = .ok (s', o)) :
    (o = .unchanged ↔ w.containsSet si = true) ∧ (o = .recovered ↔ w.containsSet si = false ∧ w.overlapsSet si = false) := by
  rw [retain_test _ e] at h
  split at h
  · cases h; simp_all
  · split at h
    · cases h; simp_all
    · obtain ⟨r, -, h⟩ := bind_ok h
      obtain ⟨s2, -, h⟩ := bind_ok h
      cases h
      simp_all

theorem call_answer {s : Sched} (hl : LooseSched s) {W : Int} (hW : W < INF) {c : Call} (hc : c.Ok s.graph.size W) (hp : Pure s c.instant)
    (hd : ∃ t, c.Allows t) {s' : Sched} {o : Outcome} (h : c.run false s = .ok (s', o)) :
    (o = .unchanged ↔ ∀ t, Slot s c.instant t → c.Allows t) ∧ (o = .recovered ↔ ¬ ∃ t, Slot s c.instant t ∧ c.Allows t) := by
  obtain ⟨si, e, ci, t0, ht0⟩ := pure_canon hl hp
  have key : ∀ (w : Window), ProperWindow w → (∃ t, InExtWindow t w) → s.retain false c.instant w = .ok (s', o) →
      (o = .unchanged ↔ ∀ t, Slot s c.instant t → InExtWindow t w) ∧
      (o = .recovered ↔ ¬ ∃ t, Slot s c.instant t ∧ InExtWindow t w) := by
    intro w pw dw hr
    obtain ⟨k1, k2⟩ := retain_answer e hr
    have q1 := contains_ext pw ci
    have q2 := overlaps_ext pw ci (fun v hv => Or.inl (by subst hv; exact dw))
    have q3 : ∀ t, Slot s c.instant t ↔ InExtSet t si := slot_get e
    simp only [q3]
    refine ⟨k1.trans q1, k2.trans ?_⟩
    rw [← q2, Bool.not_eq_true]
    refine ⟨fun h => h.2, fun h => ⟨?_, h⟩⟩
    rw [← Bool.not_eq_true]
    intro hc
    rw [← Bool.not_eq_true, q2] at h
    exact h ⟨t0, ht0, q1.1 hc t0 ht0⟩
  cases c with
  | retain i w => exact key w hc.2.1 hd h
  | remove i w =>
    obtain ⟨k1, k2, k3⟩ := neg_spec hc.2.1 hc.2.2 (by omega)
    have := key (.set w.not) k1 (hd.imp fun t ht => (k3 t).2 ht) h
    simp only [Call.Allows, ← k3]
    exact this

/-! ## The theorems -/

/-- C152, with requests about one instant: whatever the intervals and sets asked for or removed, in a debug or a release build, if the slots of this instant show in the end no
interval without a date, the dates left to every instant of the graph are exactly those of the solutions which follow the accepted requests.
Missing: see `C152_violated`. -/
theorem C152_one_partial {dbg : Bool} {g : Graph} (hv : Valid g) (hm : Minimal g) {B W : Int} (hB : 0 ≤ B) (hg : Within B g) {i : Nat}
    {calls : List Call} (hok : ∀ c ∈ calls, c.Ok g.size W) (hi : ∀ c ∈ calls, c.instant = i) (hW : W + calls.length * B < INF)
    (hBI : B < INF) {s : Sched} {acc : List Call} (h : callAll dbg (Sched.new g) calls = .ok (s, acc)) (hp : Pure s i) :
    ∀ j, j < g.size → ∀ t, Slot s j t ↔ ∃ τ, Sat τ g ∧ τ j = t ∧ ∀ c ∈ acc, c.Allows (τ c.instant) := by
  have hz := zeroDiag_of_minimal hv hm
  have hs := spanned_of_sat hm.1 hBI hg
  have hub := hub_calls hB (W := W) calls (s := Sched.new g) (V := W) hv hz hs (new_loose g) hg (new_within g W) (Int.le_refl _) hW hok hi
    (hub_new hv hs i) h
  rcases callAll_loose dbg hB calls (s := Sched.new g) (V := W) hv hz hs (new_loose g) hg (new_within g W) (Int.le_refl _)
    hW hok with ⟨s1, acc1, h1, h2, h3, h4, h5⟩ | ⟨-, h0⟩
  · rw [h] at h1
    cases h1
    have h2 : s.graph = g := h2
    have sub : ∀ c ∈ acc, c.instant = i := fun c hc => hi c (callAll_sub calls h c hc)
    intro j hj t
    constructor
    · intro ht
      by_cases d : j = i
      · subst d
        obtain ⟨τ, hτ⟩ := hm.1
        refine ⟨_, sat_moved hτ (t - τ j), by omega, fun c hc => ?_⟩
        have := (h4 _ t ht).2 c hc (sub c hc)
        rw [sub c hc]
        rwa [show τ j + (t - τ j) = t by omega]
      · obtain ⟨sp, a, k1, k2, k3⟩ := hub hp j (by rw [h2]; exact hj) d t ht
        rw [h2] at k1
        have hi' : i < g.size := by
          obtain ⟨w, e, -⟩ := k2
          have := (List.getElem?_eq_some_iff.1 e).1
          rw [h3.1, h2] at this
          exact this
        obtain ⟨τ, t1, t2⟩ := hm.2 i j hi' hj sp k1 (t - a) k3
        refine ⟨_, sat_moved t1 (a - τ i), by omega, fun c hc => ?_⟩
        have := (h4 _ a k2).2 c hc (sub c hc)
        rw [sub c hc]
        rwa [show τ i + (a - τ i) = a by omega]
    · rintro ⟨τ, t1, rfl, t2⟩
      exact h5 τ t1 (fun j hj => new_slot g hj _) t2 j hj
  · rw [h] at h0
    cases h0

/-- C152, the answers about one instant: if its slots show no interval without a date, a further request about it, which allows some date, is
answered `Unchanged` iff all the solutions which follow the accepted requests follow it, and refused iff none does. -/
theorem C152_one_answer_partial {dbg : Bool} {g : Graph} (hv : Valid g) (hm : Minimal g) {B W : Int} (hB : 0 ≤ B) (hg : Within B g) {i : Nat}
    {calls : List Call} (hok : ∀ c ∈ calls, c.Ok g.size W) (hi : ∀ c ∈ calls, c.instant = i) (hW : W + (calls.length + 1) * B < INF)
    (hBI : B < INF) {s : Sched} {acc : List Call} (h : callAll dbg (Sched.new g) calls = .ok (s, acc)) (hp : Pure s i)
    {c : Call} (hc : c.Ok g.size W) (hci : c.instant = i) (hd : ∃ t, c.Allows t) :
    (dbg = false → ∃ p, c.run dbg s = .ok p) ∧ ∀ s' o, c.run dbg s = .ok (s', o) → o ≠ .fatal ∧
      (o = .unchanged ↔ ∀ τ, Sat τ g → (∀ a ∈ acc, a.Allows (τ a.instant)) → c.Allows (τ c.instant)) ∧
      (o = .recovered ↔ ¬ ∃ τ, Sat τ g ∧ (∀ a ∈ acc, a.Allows (τ a.instant)) ∧ c.Allows (τ c.instant)) := by
  rw [Int.add_mul, Int.one_mul] at hW
  have hn : 0 ≤ (calls.length : Int) * B := Int.mul_nonneg (by omega) hB
  have ex := C152_one_partial hv hm hB hg hok hi (by omega) hBI h hp
  have hz := zeroDiag_of_minimal hv hm
  have hs := spanned_of_sat hm.1 hBI hg
  obtain ⟨a1, a2, a3⟩ := callAll_pieces hB (W := W) calls (s := Sched.new g) (V := W) hv hz hs (new_loose g) hg (new_within g W)
    (Int.le_refl _) (by omega) hok h
  have a1 : s.graph = g := a1
  subst a1
  have hl : c.instant < s.graph.size := by cases c <;> exact hc.1
  rcases call_loose false hv hz hs a2 hg a3 (W := W) (by omega) (by omega) hB hc with ⟨s', o, b1, -, -, -, b5, -⟩ | ⟨h0, -⟩
  · refine ⟨fun hd => ⟨_, by rw [hd]; exact b1⟩, fun s'' o' hr => ?_⟩
    have b2 := run_same hv hr
    rw [b1] at b2
    cases b2
    obtain ⟨k1, k2⟩ := call_answer a2 (W := W) (by omega) hc (by rw [hci]; exact hp) hd b1
    refine ⟨b5, k1.trans ?_, k2.trans (not_congr ?_)⟩
    · exact ⟨fun k τ t1 t2 => k _ ((ex _ hl _).2 ⟨τ, t1, rfl, t2⟩), fun k t ht => by
        obtain ⟨τ, t1, rfl, t2⟩ := (ex _ hl _).1 ht
        exact k τ t1 t2⟩
    · constructor
      · rintro ⟨t, ht, hal⟩
        obtain ⟨τ, t1, rfl, t2⟩ := (ex _ hl _).1 ht
        exact ⟨τ, t1, t2, hal⟩
      · rintro ⟨τ, t1, t2, hal⟩
        exact ⟨_, (ex _ hl _).2 ⟨τ, t1, rfl, t2⟩, hal⟩
  · cases h0

/-- C152, with a graph of two instants: whatever the intervals and sets asked for one or the other or removed, if no accepted request leaves in
the slots of its instant an interval without a date, the dates left are exactly those of the solutions which follow the accepted requests.
Missing: see `C152_violated`. -/
theorem C152_two_partial {dbg : Bool} {g : Graph} (hv : Valid g) (hm : Minimal g) (h2 : g.size = 2) {B W : Int} (hB : 0 ≤ B) (hg : Within B g)
    {calls : List Call} (hok : ∀ c ∈ calls, c.Ok g.size W) (hW : W + calls.length * B < INF)
    (hBI : B < INF) {s : Sched} {acc : List Call} (h : callAll dbg (Sched.new g) calls = .ok (s, acc))
    (hp : callsPure dbg (Sched.new g) calls) :
    ∀ j, j < 2 → ∀ t, Slot s j t ↔ ∃ τ, Sat τ g ∧ τ j = t ∧ ∀ c ∈ acc, c.Allows (τ c.instant) := by
  have hz := zeroDiag_of_minimal hv hm
  have hs := spanned_of_sat hm.1 hBI hg
  have pr := pair_calls hB (W := W) calls (s := Sched.new g) (V := W) hv hz hs (new_loose g) hg (new_within g W) (Int.le_refl _) hW hok h2
    hp (pair_new hv hs) h
  rcases callAll_loose dbg hB calls (s := Sched.new g) (V := W) hv hz hs (new_loose g) hg (new_within g W) (Int.le_refl _)
    hW hok with ⟨s1, acc1, h1, e, -, h4, h5⟩ | ⟨-, h0⟩
  · rw [h] at h1
    cases h1
    have e : s.graph = g := e
    intro j hj t
    constructor
    · intro ht
      obtain ⟨sp, a, k1, k2, k3⟩ := pr (1 - j) j (by rw [e]; omega) (by rw [e]; omega) (by omega) t ht
      rw [e] at k1
      obtain ⟨τ, t1, t2⟩ := hm.2 (1 - j) j (by omega) (by omega) sp k1 (t - a) k3
      refine ⟨_, sat_moved t1 (a - τ (1 - j)), by omega, fun c hc => ?_⟩
      have hci : c.instant < g.size := by
        have := hok c (callAll_sub calls h c hc)
        cases c <;> exact this.1
      by_cases d : c.instant = j
      · have := (h4 _ t ht).2 c hc d
        rw [d]
        rwa [show τ j + (a - τ (1 - j)) = t by omega]
      · have d : c.instant = 1 - j := by omega
        have := (h4 _ a k2).2 c hc d
        rw [d]
        rwa [show τ (1 - j) + (a - τ (1 - j)) = a by omega]
    · rintro ⟨τ, t1, rfl, t2⟩
      exact h5 τ t1 (fun j hj => new_slot g hj _) t2 j (by rw [← h2] at hj; exact hj)
  · rw [h] at h0
    cases h0

/-- C152, the answers of a graph of two instants: a further request, which allows some date, about an instant whose slots show no interval
without a date, is
answered `Unchanged` iff all the solutions which follow the accepted requests follow it, and refused iff none does. -/
theorem C152_two_answer_partial {dbg : Bool} {g : Graph} (hv : Valid g) (hm : Minimal g) (h2 : g.size = 2) {B W : Int} (hB : 0 ≤ B) (hg : Within B g)
    {calls : List Call} (hok : ∀ c ∈ calls, c.Ok g.size W) (hW : W + (calls.length + 1) * B < INF)
    (hBI : B < INF) {s : Sched} {acc : List Call} (h : callAll dbg (Sched.new g) calls = .ok (s, acc)) 
    (hq : callsPure dbg (Sched.new g) calls) {c : Call} (hc : c.Ok g.size W) (hp : Pure s c.instant) (hd : ∃ t, c.Allows t) :
    (dbg = false → ∃ p, c.run dbg s = .ok p) ∧ ∀ s' o, c.run dbg s = .ok (s', o) → o ≠ .fatal ∧
      (o = .unchanged ↔ ∀ τ, Sat τ g → (∀ a ∈ acc, a.Allows (τ a.instant)) → c.Allows (τ c.instant)) ∧
      (o = .recovered ↔ ¬ ∃ τ, Sat τ g ∧ (∀ a ∈ acc, a.Allows (τ a.instant)) ∧ c.Allows (τ c.instant)) := by
  rw [Int.add_mul, Int.one_mul] at hW
  have hn : 0 ≤ (calls.length : Int) * B := Int.mul_nonneg (by omega) hB
  have ex := C152_two_partial hv hm h2 hB hg hok (by omega) hBI h hq
  have hz := zeroDiag_of_minimal hv hm
  have hs := spanned_of_sat hm.1 hBI hg
  obtain ⟨a1, a2, a3⟩ := callAll_pieces hB (W := W) calls (s := Sched.new g) (V := W) hv hz hs (new_loose g) hg (new_within g W)
    (Int.le_refl _) (by omega) hok h
  have a1 : s.graph = g := a1
  subst a1
  rw [← h2] at ex
  have hl : c.instant < s.graph.size := by cases c <;> exact hc.1
  rcases call_loose false hv hz hs a2 hg a3 (W := W) (by omega) (by omega) hB hc with ⟨s', o, b1, -, -, -, b5, -⟩ | ⟨h0, -⟩
  · refine ⟨fun hd => ⟨_, by rw [hd]; exact b1⟩, fun s'' o' hr => ?_⟩
    have b2 := run_same hv hr
    rw [b1] at b2
    cases b2
    obtain ⟨k1, k2⟩ := call_answer a2 (W := W) (by omega) hc hp hd b1
    refine ⟨b5, k1.trans ?_, k2.trans (not_congr ?_)⟩
    · exact ⟨fun k τ t1 t2 => k _ ((ex _ hl _).2 ⟨τ, t1, rfl, t2⟩), fun k t ht => by
        obtain ⟨τ, t1, rfl, t2⟩ := (ex _ hl _).1 ht
        exact k τ t1 t2⟩
    · constructor
      · rintro ⟨t, ht, hal⟩
        obtain ⟨τ, t1, rfl, t2⟩ := (ex _ hl _).1 ht
        exact ⟨τ, t1, t2, hal⟩
      · rintro ⟨τ, t1, t2, hal⟩
        exact ⟨_, (ex _ hl _).2 ⟨τ, t1, rfl, t2⟩, hal⟩
  · cases h0

/-- C152 fails, for any instant `i` other than 0, any delay which is not fixed from `i` to `j` and is bounded above, any `p < m ≤ q`: retain the
dates `p` to `q` for `i`, then remove `m` to `q`. The last date left to `j` by the first request is kept by the second one, although it now belongs
to no solution. -/
theorem C152_violated {g : Graph} (hv : Valid g) (hm : Minimal g) {B W : Int} (hB : 0 ≤ B) (hg : Within B g) (hW : W + 3 * B < INF)
    {i j : Nat} (hi : i < g.size) (hj : j < g.size) (hji : j ≠ i) (i0 : i ≠ 0) {sp : Iv} (e : g.timespan i j = .ok sp)
    (hw : sp.lower < sp.upper) (hu : sp.upper ≠ INF) {p m q : Int} (hpm : p < m) (hmq : m ≤ q) (hp : -W < p) (hq : q < W) :
    ∃ s, callAll false (Sched.new g) [.retain i (.conv (.iv ⟨p, q⟩)), .remove i (.iv ⟨m, q⟩)] =
        .ok (s, [.retain i (.conv (.iv ⟨p, q⟩)), .remove i (.iv ⟨m, q⟩)]) ∧
      Slot s j (q + sp.upper) ∧
      ¬ ∃ τ, Sat τ g ∧ τ j = q + sp.upper ∧ ∀ c ∈ [Call.retain i (.conv (.iv ⟨p, q⟩)), .remove i (.iv ⟨m, q⟩)], c.Allows (τ c.instant) := by
  have hz := zeroDiag_of_minimal hv hm
  have hs := spanned_of_sat hm.1 (B := B) (by omega) hg
  have wsp := hs i j hi hj sp e
  have ok1 : (Call.retain i (.conv (.iv ⟨p, q⟩))).Ok g.size W := by
    refine ⟨hi, Or.inl ⟨?_, ?_, ?_, ?_, ?_⟩, ?_⟩
    · show p ≤ q
      omega
    · show -INF ≤ p
      omega
    · show q ≤ INF
      omega
    · show p < INF
      omega
    · show -INF < q
      omega
    · exact Or.inr fun x hx => by
        rw [List.mem_singleton.1 hx]
        simp only
        omega
  have ok2 : (Call.remove i (.iv ⟨m, q⟩)).Ok g.size W := by
    refine ⟨hi, Or.inl ⟨?_, ?_, ?_, ?_, ?_⟩, ?_⟩
    · exact hmq
    · show -INF ≤ m
      omega
    · show q ≤ INF
      omega
    · show m < INF
      omega
    · show -INF < q
      omega
    · exact Or.inr fun x hx => by
        rw [List.mem_singleton.1 hx]
        simp only
        omega
  have al1 : ∀ t, (Call.retain i (.conv (.iv ⟨p, q⟩))).Allows t ↔ p ≤ t ∧ t ≤ q := by
    intro t
    show InExt t ⟨p, q⟩ ↔ _
    simp only [InExt]
    omega
  have al2 : ∀ t, (Call.remove i (.iv ⟨m, q⟩)).Allows t ↔ t < m ∨ q < t := by
    intro t
    show ¬ InExt t ⟨m, q⟩ ↔ _
    simp only [InExt]
    omega
  have pn : Pure (Sched.new g) i :=
    ⟨TSet.all, by simp [Sched.scheduling, Sched.new, List.getElem?_replicate]; exact hi, by decide, by decide⟩
  -- the first request
  obtain ⟨s1, o1, r1, g1, ⟨lo, hi', cv⟩, -⟩ := plan_step false (s := Sched.new g) hv hm (W := W) hg hB (by omega) (by omega) (new_conv g _)
    (c := .retain i (.iv ⟨p, q⟩)) ⟨hi, ok1.2.1, ⟨p, (al1 p).2 (by omega)⟩, ok1.2.2⟩
  have r1 : (Call.retain i (.conv (.iv ⟨p, q⟩))).run false (Sched.new g) = .ok (s1, o1) := r1
  have g1 : s1.graph = g := g1
  have hl0 := new_loose g
  obtain ⟨k1, k2⟩ := call_answer hl0 (W := W) (by omega) ok1 pn ⟨p, (al1 p).2 (by omega)⟩ r1
  have n1 : o1 ≠ .unchanged := fun h => by
    have := (al1 _).1 (k1.1 h (q + 1) (new_slot g hi _))
    omega
  have n2 : o1 ≠ .recovered := fun h => k2.1 h ⟨p, new_slot g hi _, (al1 p).2 (by omega)⟩
  have x1 : o1 = .propagated := by
    rcases call_loose false hv hz hs hl0 hg (new_within g W) (Int.le_refl _) (by omega) hB ok1 with ⟨s', o, b1, -, -, -, b5, -⟩ | ⟨h0, -⟩
    · rw [r1] at b1
      cases b1
      cases o1 <;> first | rfl | (exact absurd rfl n1) | (exact absurd rfl n2) | (exact absurd rfl b5)
    · cases h0
  subst x1
  subst g1
  have pu : ∀ k, k < s1.graph.size → Pure s1 k := fun k hk =>
    ⟨_, cv.get k hk, by simp, fun x hx => by rw [List.mem_singleton.1 hx]; exact (cv.arc.wf k hk).le⟩
  obtain ⟨f1, f2⟩ := call_pure (s := Sched.new s1.graph) hv hz hs hB hg hl0 (new_within _ W) (Int.le_refl _) (by omega) ok1 r1 (pu i hi)
  have si : ∀ t, Slot s1 i t ↔ p ≤ t ∧ t ≤ q := fun t => (f1 t).trans ⟨fun h => (al1 t).1 h.2, fun h => ⟨new_slot _ hi _, (al1 t).2 h⟩⟩
  have hq' : hi' i = q := by
    have a := fun t => (cv.slot hi t).symm.trans (si t)
    have wf := cv.arc.wf i hi
    have b1 := (a q).2 (by omega)
    have b2 := mt (a (q + 1)).1 (by omega)
    simp only [InExt] at b1 b2
    omega
  have sj : Slot s1 j (q + sp.upper) := by
    obtain ⟨sp', e', h⟩ := f2 j hj hji
    have e' : s1.graph.timespan i j = .ok sp' := e'
    rw [e] at e'
    cases e'
    refine (h _).2 ⟨new_slot _ hj _, q, (si q).2 (by omega), ?_⟩
    simp only [InExt]
    omega
  -- the second one
  have lc : LooseSched s1 := ⟨cv.canon.1, fun w h => (cv.canon.2 w h).loose⟩
  rcases call_loose false hv hz hs lc hg cv.within (W := W) (by omega) (by omega) hB ok2 with ⟨s2, o2, r2, -, -, -, b5, -⟩ | ⟨h0, -⟩
  · obtain ⟨k1, k2⟩ := call_answer lc (W := W) (by omega) ok2 (pu i hi) ⟨p, (al2 p).2 (by omega)⟩ r2
    have n1 : o2 ≠ .unchanged := fun h => by
      have := (al2 _).1 (k1.1 h q ((si q).2 (by omega)))
      omega
    have n2 : o2 ≠ .recovered := fun h => k2.1 h ⟨p, (si p).2 (by omega), (al2 p).2 (by omega)⟩
    have x2 : o2 = .propagated := by
      cases o2 <;> first | rfl | (exact absurd rfl n1) | (exact absurd rfl n2) | (exact absurd rfl b5)
    subst x2
    refine ⟨s2, ?_, ?_, ?_⟩
    · simp only [callAll, r1, r2, ok_bind]
      rfl
    · obtain ⟨-, k⟩ := C77_remove_exact hv hz hs cv.canon hg cv.within (by omega) hB hi ok2.2.1
        (Or.inr fun x hx => by
          rw [List.mem_singleton.1 hx]
          simp only
          omega) r2
      obtain ⟨sp', e', h⟩ := k j hj hji
      rw [e] at e'
      cases e'
      refine (h _).2 ⟨sj, Or.inr ⟨i0, q + 1, ⟨⟨by omega, by omega⟩, _, cv.get i hi, _, List.mem_singleton.2 rfl, ⟨m, q⟩, ?_, Or.inl ⟨by rw [← hq'], rfl⟩⟩, ?_, ?_⟩⟩
      · simp only [partsOf]
        rw [if_neg]
        · simp
        · intro h
          injection h with h h'
          omega
      · simp only [InExt]
        omega
      · simp only [InExt]
        omega
    · rintro ⟨τ, t1, t2, t3⟩
      have a1 := (al1 _).1 (t3 _ (by simp))
      have a2 := (al2 _).1 (t3 (.remove i (.iv ⟨m, q⟩)) (by simp))
      simp only [Call.instant] at a1 a2
      obtain ⟨sp', e', h⟩ := t1 i j hi hj
      rw [e] at e'
      cases e'
      simp only [InExt] at h
      omega
  · cases h0

/-! ## Examples -/

/-- one instant: a set with two intervals is asked for instant 1 of three, then a date inside is removed -/
example : ∃ s acc, (∀ c ∈ [Call.retain 1 (.set [⟨0, 4⟩, ⟨20, 24⟩]), .remove 1 (.iv ⟨2, 2⟩)], c.Ok exGraph.size 100 ∧ c.instant = 1) ∧
    callAll false (Sched.new exGraph) [.retain 1 (.set [⟨0, 4⟩, ⟨20, 24⟩]), .remove 1 (.iv ⟨2, 2⟩)] = .ok (s, acc) ∧ acc.length = 2 ∧
    Pure s 1 ∧ s.scheduling 2 = some [⟨5, 10⟩, ⟨25, 30⟩] ∧ (100 : Int) + (2 + 1) * 26 < INF ∧ Valid exGraph ∧ Minimal exGraph ∧
    Within 26 exGraph ∧ (Call.retain 1 (.conv (.point 22))).Ok exGraph.size 100 :=
  ⟨⟨exGraph, [[⟨-20, -6⟩, ⟨0, 14⟩], [⟨0, 1⟩, ⟨3, 4⟩, ⟨20, 24⟩], [⟨5, 10⟩, ⟨25, 30⟩]]⟩,
    [.retain 1 (.set [⟨0, 4⟩, ⟨20, 24⟩]), .remove 1 (.iv ⟨2, 2⟩)], by decide, by decide +kernel, rfl, ⟨_, rfl, by decide, by decide⟩, rfl, by decide,
    exGraph_valid, exGraph_minimal, exGraph_within, by decide⟩

/-- two instants, the second one 10 to 20 after the first one -/
def pairGraph : Graph := ⟨2, [0, -20, 0, 10]⟩

theorem pairGraph_minimal : Minimal pairGraph := by
  rw [minimal_iff (by decide)]
  have d : ∀ i : Fin 2, mat pairGraph i i = 0 := by decide
  have t : ∀ i k j : Fin 2, mat pairGraph i k ≠ -INF → mat pairGraph k j ≠ -INF →
      mat pairGraph i j ≠ -INF ∧ mat pairGraph i k + mat pairGraph k j ≤ mat pairGraph i j := by decide
  exact ⟨fun i hi => d ⟨i, hi⟩, fun i hi k hk j hj => t ⟨i, hi⟩ ⟨k, hk⟩ ⟨j, hj⟩⟩

/-- two instants: a set for each of them -/
example : ∃ s acc, (∀ c ∈ [Call.retain 0 (.set [⟨0, 4⟩, ⟨40, 44⟩]), .retain 1 (.set [⟨12, 15⟩, ⟨52, 52⟩])], c.Ok pairGraph.size 100) ∧
    callAll false (Sched.new pairGraph) [.retain 0 (.set [⟨0, 4⟩, ⟨40, 44⟩]), .retain 1 (.set [⟨12, 15⟩, ⟨52, 52⟩])] = .ok (s, acc) ∧
    acc.length = 2 ∧ callsPure false (Sched.new pairGraph) [.retain 0 (.set [⟨0, 4⟩, ⟨40, 44⟩]), .retain 1 (.set [⟨12, 15⟩, ⟨52, 52⟩])] ∧
    s.scheduling 0 = some [⟨0, 4⟩, ⟨40, 42⟩] ∧ Pure s 0 ∧ Within 20 pairGraph := by
  refine ⟨⟨pairGraph, [[⟨0, 4⟩, ⟨40, 42⟩], [⟨12, 15⟩, ⟨52, 52⟩]]⟩, [.retain 0 (.set [⟨0, 4⟩, ⟨40, 44⟩]), .retain 1 (.set [⟨12, 15⟩, ⟨52, 52⟩])],
    by decide, by decide +kernel, rfl, fun s o h => ?_, rfl, ⟨_, rfl, by decide, by decide⟩, ?_⟩
  · have e : (Call.retain 0 (.set [⟨0, 4⟩, ⟨40, 44⟩])).run false (Sched.new pairGraph) =
        .ok (⟨pairGraph, [[⟨0, 4⟩, ⟨40, 44⟩], [⟨10, 24⟩, ⟨50, 64⟩]]⟩, .propagated) := by decide +kernel
    rw [e] at h
    cases h
    refine ⟨fun _ => ⟨_, rfl, by decide, by decide⟩, fun s o h => ?_⟩
    have e : (Call.retain 1 (.set [⟨12, 15⟩, ⟨52, 52⟩])).run false ⟨pairGraph, [[⟨0, 4⟩, ⟨40, 44⟩], [⟨10, 24⟩, ⟨50, 64⟩]]⟩ =
        .ok (⟨pairGraph, [[⟨0, 4⟩, ⟨40, 42⟩], [⟨12, 15⟩, ⟨52, 52⟩]]⟩, .propagated) := by decide +kernel
    rw [e] at h
    cases h
    exact ⟨fun _ => ⟨_, rfl, by decide, by decide⟩, trivial⟩
  · rw [within_iff (by decide)]
    show ∀ i, i < 2 → ∀ j, j < 2 → (_ ∨ _)
    decide

example := C152_violated exGraph_valid exGraph_minimal (B := 26) (W := 100) (by decide) exGraph_within (by decide) (i := 1) (j := 0) (by decide)
  (by decide) (by decide) (by decide) (sp := ⟨-20, -10⟩) (by decide) (by decide) (by decide) (p := 0) (m := 5) (q := 9) (by decide) (by decide)
  (by decide) (by decide)

end Chrono
