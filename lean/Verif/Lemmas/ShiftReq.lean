import Verif.Lemmas.ShiftSched
import Verif.Lemmas.Sched

/-!
# Lemmas: requests to a scheduler commute with moving the origin of time
-/

namespace Chrono
open Spec

/-- the second result is the first one, moved by `f`; and if there is one it satisfies `P` -/
def Moves {α : Type} (f : α → α) (P : α → Prop) (a b : Res α) : Prop := b = Except.map f a ∧ ∀ x, a = .ok x → P x

theorem moves_ok {α : Type} {f : α → α} {P : α → Prop} {x : α} (h : P x) : Moves f P (.ok x) (.ok (f x)) :=
  ⟨rfl, fun _ e => by cases e; exact h⟩

theorem moves_error {α : Type} {f : α → α} {P : α → Prop} {e : Panic} : Moves f P (.error e) (.error e) :=
  ⟨rfl, fun _ h => by cases h⟩

theorem moves_bind {α β : Type} {f : α → α} {P : α → Prop} {g : β → β} {Q : β → Prop} {a b : Res α} {k k' : α → Res β}
    (h : Moves f P a b) (hk : ∀ x, P x → Moves g Q (k x) (k' (f x))) : Moves g Q (a >>= k) (b >>= k') := by
  obtain ⟨rfl, h⟩ := h
  cases a with
  | error e => exact moves_error
  | ok x => exact hk x (h x rfl)

theorem moves_mono {α : Type} {f : α → α} {P Q : α → Prop} {a b : Res α} (h : Moves f P a b) (hq : ∀ x, P x → Q x) : Moves f Q a b :=
  ⟨h.1, fun x e => hq x (h.2 x e)⟩

theorem room_mono {d W W' : Int} (r : Room d W') (h0 : 0 ≤ W) (h : W ≤ W') : Room d W := by
  have := r.up; have := r.down; have := r.wide
  exact ⟨h0, by omega, by omega, by omega⟩

theorem later_singleton {d W : Int} (r : Room d W) {t : Int} (ht : Near W t) :
    Iv.singleton (later d t) = laterIv d (Iv.singleton t) ∧ NearIv W (Iv.singleton t) := by
  have := r.up; have := r.down; have := r.wide; have := r.pos
  have c : isFinite (later d t) = isFinite t := by
    unfold isFinite
    unfold Near at ht
    unfold later
    split
    · rfl
    · have h1 : ((t + d).natAbs : Int) ≠ INF := by ticks
      have h2 : (t.natAbs : Int) ≠ INF := by ticks
      simp only [bne_iff_ne.2 h1, bne_iff_ne.2 h2]
  unfold Iv.singleton
  rw [c]
  split
  · exact ⟨rfl, ht, ht⟩
  · exact ⟨laterIv_empty.symm, nearIv_empty⟩

theorem ivNew_later {d W : Int} (r : Room d W) {l u : Int} (hl : Near W l) (hu : Near W u) :
    Iv.new (later d l) (later d u) = laterIv d (Iv.new l u) ∧ NearIv W (Iv.new l u) := by
  have hl' : Near (W + 1) l := near_mono hl (by omega)
  have hu' : Near (W + 1) u := near_mono hu (by omega)
  unfold Iv.new
  simp only [later_lt r hl' hu', later_eq r hl' hu']
  split
  · exact ⟨rfl, hl, hu⟩
  · split
    · exact later_singleton r hl
    · exact ⟨laterIv_empty.symm, nearIv_empty⟩

theorem debugNonEmpty_later {d W : Int} (r : Room d W) (dbg : Bool) {i : Iv} (h : NearIv W i) :
    Moves (laterIv d) (NearIv W) (Iv.debugNonEmpty dbg i) (Iv.debugNonEmpty dbg (laterIv d i)) := by
  unfold Iv.debugNonEmpty
  rw [isEmpty_later r h]
  split
  · exact moves_error
  · exact moves_ok h

theorem ivAddSpan_later {d W B : Int} (r : Room d (W + B)) (hB : 0 ≤ B) (dbg : Bool) {i sp : Iv} (hi : NearIv W i) (hs : NearIv B sp) :
    Moves (laterIv d) (NearIv (W + B)) (i.addSpan dbg sp) ((laterIv d i).addSpan dbg sp) := by
  unfold Iv.addSpan
  refine moves_bind (f := later d) (P := Near (W + B)) (tvAdd_later r hB hi.1 hs.1) fun l hl => ?_
  refine moves_bind (f := later d) (P := Near (W + B)) (tvAdd_later r hB hi.2 hs.2) fun u hu => ?_
  rw [(ivNew_later r hl hu).1]
  exact debugNonEmpty_later r dbg (ivNew_later r hl hu).2

theorem unionConvex_later {d W : Int} (r : Room d W) {s : TSet} {i : Iv} (hs : NearSet W s) (hi : NearIv W i) :
    Moves (laterSet d) (NearSet W) (TSet.unionConvex s (.iv i)) (TSet.unionConvex (laterSet d s) (.iv (laterIv d i))) := by
  unfold TSet.unionConvex
  obtain ⟨e, n⟩ := iter_later r hi
  change Moves _ _ (TSet.fromIter (UnionIter.new s (Convex.iv i).iter).drain)
    (TSet.fromIter (UnionIter.new (laterSet d s) (Convex.iv (laterIv d i)).iter).drain)
  rw [e, (union_drain_later r hs n).1]
  exact fromIter_later r (union_drain_later r hs n).2

theorem setAddSpan_later {d W B : Int} (r : Room d (W + B)) (hB : 0 ≤ B) (dbg : Bool) {s : TSet} {sp : Iv} (hs : NearSet W s)
    (hsp : NearIv B sp) : Moves (laterSet d) (NearSet (W + B)) (TSet.addSpan dbg s sp) (TSet.addSpan dbg (laterSet d s) sp) := by
  unfold TSet.addSpan
  refine fold_later (P := NearIv W) (m := laterIv d) (fun t i ht hi => ?_) s [] nearSet_nil hs
  exact moves_bind (ivAddSpan_later r hB dbg hi hsp) fun x hx => unionConvex_later r ht hx

theorem sget_later {d : Int} {P : TSet → Prop} {sch : List TSet} {i : Nat} (h : ∀ w, sch[i]? = some w → P w) :
    Moves (laterSet d) P (sget sch i) (sget (sch.map (laterSet d)) i) := by
  unfold sget
  rw [List.getElem?_map]
  cases e : sch[i]? with
  | none => exact moves_error
  | some w => exact moves_ok (h w e)

theorem sset_later {d : Int} {P : List TSet → Prop} {sch : List TSet} {i : Nat} {r : TSet} (h : P (sch.set i r)) :
    Moves (List.map (laterSet d)) P (sset sch i r) (sset (sch.map (laterSet d)) i (laterSet d r)) := by
  unfold sset
  rw [List.length_map]
  split
  · rw [← List.map_set]
    exact moves_ok h
  · exact moves_error

/-- the bounds during the propagation from `i`: its slot does not change -/
def NearAt (W V : Int) (i : Nat) (sch : List TSet) : Prop := (∀ w ∈ sch, NearSet V w) ∧ ∀ w, sch[i]? = some w → NearSet W w

theorem propagateOne_later {d W B : Int} (r : Room d (W + B)) (hW : 0 ≤ W) (hB : 0 ≤ B) (dbg : Bool) {i : Nat} {k : Constr} (hk : NearIv B k.span)
    (hz : k.dst = i → k.span = ⟨0, 0⟩) {sch : List TSet} (h : NearAt W (W + B) i sch) :
    Moves (List.map (laterSet d)) (NearAt W (W + B) i) (Sched.propagateOne dbg i sch k)
      (Sched.propagateOne dbg i (sch.map (laterSet d)) k) := by
  unfold Sched.propagateOne
  by_cases c : k.dst = i
  · have z := hz c
    have r0 : Room d (W + 0) := room_mono r (by omega) (by omega)
    have r1 : Room d W := room_mono r (by omega) (by omega)
    have n0 : NearIv 0 k.span := by rw [z]; exact ⟨Or.inr (Or.inr (by constructor <;> decide)), Or.inr (Or.inr (by constructor <;> decide))⟩
    refine moves_bind (f := laterSet d) (P := NearSet W) (sget_later (by rw [c]; exact h.2)) fun sj hj => ?_
    refine moves_bind (f := laterSet d) (P := NearSet W) (sget_later h.2) fun si hi => ?_
    refine moves_bind (setAddSpan_later r0 (by omega) dbg hi n0) fun t ht => ?_
    rw [Int.add_zero] at ht
    refine moves_bind (f := laterSet d) (P := NearSet W) (inter_later r1 hj ht) fun x hx => ?_
    refine sset_later ⟨fun w hw => ?_, fun w hw => ?_⟩
    · rcases List.mem_or_eq_of_mem_set hw with hw | rfl
      · exact h.1 w hw
      · exact nearSet_mono hx (by omega)
    · rw [c] at hw
      rw [List.getElem?_set] at hw
      simp only [if_true] at hw
      split at hw
      · cases hw; exact hx
      · cases hw
  · refine moves_bind (f := laterSet d) (P := NearSet (W + B)) (sget_later fun w hw => h.1 w (List.mem_of_getElem? hw)) fun sj hj => ?_
    refine moves_bind (f := laterSet d) (P := NearSet W) (sget_later h.2) fun si hi => ?_
    refine moves_bind (setAddSpan_later r hB dbg hi hk) fun t ht => ?_
    refine moves_bind (f := laterSet d) (P := NearSet (W + B)) (inter_later r hj ht) fun x hx => ?_
    refine sset_later ⟨fun w hw => ?_, fun w hw => ?_⟩
    · rcases List.mem_or_eq_of_mem_set hw with hw | rfl
      · exact h.1 w hw
      · exact hx
    · rw [List.getElem?_set_ne c] at hw
      exact h.2 w hw

theorem propagateLoop_later {d W B : Int} (r : Room d (W + B)) (hW : 0 ≤ W) (hB : 0 ≤ B) (dbg : Bool) {i : Nat} :
    ∀ (ks : List Constr) (sch : List TSet), (∀ k ∈ ks, NearIv B k.span ∧ (k.dst = i → k.span = ⟨0, 0⟩)) → NearAt W (W + B) i sch →
      Moves (List.map (laterSet d)) (NearAt W (W + B) i) (ks.foldlM (Sched.propagateOne dbg i) sch)
        (ks.foldlM (Sched.propagateOne dbg i) (sch.map (laterSet d)))
  | [], sch, _, h => moves_ok h
  | k :: ks, sch, hk, h => by
    rw [List.foldlM_cons, List.foldlM_cons]
    exact moves_bind (propagateOne_later r hW hB dbg (hk k List.mem_cons_self).1 (hk k List.mem_cons_self).2 h) fun x hx =>
      propagateLoop_later r hW hB dbg ks x (fun k hk' => hk k (List.mem_cons_of_mem _ hk')) hx

/-- the schedule has the bound `V` and the graph `g` -/
def NearOn (V : Int) (g : Graph) (s : Sched) : Prop := NearSched V s ∧ s.graph = g ∧ s.schedule.length = g.size

theorem propagateOne_length {dbg : Bool} {i : Nat} {sch sch' : List TSet} {k : Constr} (h : Sched.propagateOne dbg i sch k = .ok sch') :
    sch'.length = sch.length := by
  unfold Sched.propagateOne at h
  cases e1 : sget sch k.dst with
  | error e => rw [e1] at h; cases h
  | ok a =>
    cases e2 : sget sch i with
    | error e => rw [e1, e2] at h; cases h
    | ok b =>
      cases e3 : TSet.addSpan dbg b k.span with
      | error e => rw [e1, e2, ok_bind, ok_bind, e3] at h; cases h
      | ok t =>
        cases e4 : TSet.inter a t with
        | error e => rw [e1, e2, ok_bind, ok_bind, e3, ok_bind, e4] at h; cases h
        | ok x =>
          rw [e1, e2, ok_bind, ok_bind, e3, ok_bind, e4, ok_bind] at h
          unfold sset at h
          split at h
          · cases h; rw [List.length_set]
          · cases h

theorem propagateLoop_length {dbg : Bool} {i : Nat} : ∀ {ks : List Constr} {sch sch' : List TSet},
    ks.foldlM (Sched.propagateOne dbg i) sch = .ok sch' → sch'.length = sch.length
  | [], sch, sch', h => by cases h; rfl
  | k :: ks, sch, sch', h => by
    rw [List.foldlM_cons] at h
    cases e : Sched.propagateOne dbg i sch k with
    | error x => rw [e] at h; cases h
    | ok x =>
      rw [e] at h
      rw [propagateLoop_length (ks := ks) h, propagateOne_length e]

theorem propagateScheduling_later {d W B : Int} (r : Room d (W + B)) (hW : 0 ≤ W) (hB : 0 ≤ B) (dbg : Bool) {s : Sched} (hv : Valid s.graph)
    (hz : ZeroDiag s.graph) (hg : Within B s.graph) {i : Nat} (hi : i < s.graph.size) (h : NearSched W s) :
    Moves (laterSched d) (fun t => NearSched (W + B) t ∧ t.graph = s.graph ∧ t.schedule.length = s.schedule.length)
      (s.propagateScheduling dbg i) ((laterSched d s).propagateScheduling dbg i) := by
  obtain ⟨ks, h1, -, h3, -⟩ := C72_from_partial hv hi
  unfold Sched.propagateScheduling
  change Moves _ _ _ (s.graph.constraintsFrom i >>= _)
  rw [h1, ok_bind, ok_bind]
  have loop := propagateLoop_later r hW hB dbg (i := i) ks s.schedule (fun k hk => by
      obtain ⟨-, hd, -, ht, -⟩ := h3 k hk
      obtain ⟨n1, n2⟩ := hg i k.dst hi hd _ ht
      refine ⟨⟨?_, ?_⟩, fun e => ?_⟩
      · rcases n1 with n | n
        · exact Or.inr (Or.inl n)
        · exact Or.inr (Or.inr n)
      · rcases n2 with n | n
        · exact Or.inl n
        · exact Or.inr (Or.inr n)
      · rw [e, hz i hi] at ht
        injection ht with ht
        exact ht.symm)
    ⟨fun w hw => nearSet_mono (h w hw) (by omega), fun w hw => h w (List.mem_of_getElem? hw)⟩
  obtain ⟨e, n⟩ := loop
  change Moves _ _ _ (ks.foldlM (Sched.propagateOne dbg i) (s.schedule.map (laterSet d)) >>= _)
  rw [e]
  cases e2 : ks.foldlM (Sched.propagateOne dbg i) s.schedule with
  | error x => exact moves_error
  | ok sch => exact moves_ok (f := laterSched d) (x := { s with schedule := sch }) ⟨(n sch e2).1, rfl, propagateLoop_length e2⟩

/-- moving the schedule and keeping the answer -/
def laterPair (d : Int) (p : Sched × Outcome) : Sched × Outcome := (laterSched d p.1, p.2)

theorem laterSched_graph {d : Int} {s : Sched} : (laterSched d s).graph = s.graph := rfl

theorem retain_later {d W B : Int} (r : Room d (W + B)) (hW : 0 ≤ W) (hB : 0 ≤ B) (dbg : Bool) {g : Graph} (hv : Valid g) (hz : ZeroDiag g)
    (hg : Within B g) {s : Sched} (h : NearOn W g s) (i : Nat) {w w' : Window} (hw : LaterW d W w w') :
    Moves (laterPair d) (fun p => NearOn (W + B) g p.1) (s.retain dbg i w) ((laterSched d s).retain dbg i w') := by
  obtain ⟨h, rfl, hl⟩ := h
  have r0 : Room d W := room_mono r (by omega) (by omega)
  have big : NearOn (W + B) s.graph s := ⟨fun x hx => nearSet_mono (h x hx) (by omega), rfl, hl⟩
  unfold Sched.retain
  have e : (laterSched d s).schedule = s.schedule.map (laterSet d) := rfl
  rw [e, List.length_map]
  split
  · rename_i hi
    refine moves_bind (f := laterSet d) (P := NearSet W) (sget_later fun w hw => h w (List.mem_of_getElem? hw)) fun si hsi => ?_
    rw [windowContains_later r0 hw hsi, windowOverlaps_later r0 hw hsi]
    split
    · exact moves_ok (f := laterPair d) big
    · split
      · exact moves_ok (f := laterPair d) (x := (s, .recovered)) big
      · refine moves_bind (f := laterSet d) (P := NearSet W) (restrict_later r0 hw hsi) fun x hx => ?_
        refine moves_bind (f := List.map (laterSet d)) (P := fun sch => (∀ w ∈ sch, NearSet W w) ∧ sch.length = s.schedule.length) (sset_later ?_) fun sch hs => ?_
        · refine ⟨fun w hw => ?_, List.length_set⟩
          rcases List.mem_or_eq_of_mem_set hw with hw | rfl
          · exact h w hw
          · exact hx
        · refine moves_bind (propagateScheduling_later (s := { s with schedule := sch }) r hW hB dbg hv hz hg (by show i < s.graph.size; omega) hs.1) fun t ht => ?_
          exact moves_ok (f := laterPair d) (x := (t, .propagated)) ⟨ht.1, ht.2.1, by rw [ht.2.2]; show sch.length = _; omega⟩
  · exact moves_error

theorem laterC_mono {d W W' : Int} {w w' : Convex} (h : LaterC d W w w') (hW : W ≤ W') : LaterC d W' w w' :=
  ⟨h.lower, h.upper, near_mono h.nl hW, near_mono h.nu hW⟩

theorem laterW_mono {d W W' : Int} {w w' : Window} (h : LaterW d W w w') (hW : W ≤ W') : LaterW d W' w w' := by
  cases w <;> cases w'
  · exact laterC_mono h hW
  · cases h
  · cases h
  · exact ⟨h.1, nearSet_mono h.2 hW⟩

/-- the body of the loop of `set_deadline` and `set_startline` -/
def retainStep (dbg : Bool) (w : Window) (p : Sched × Outcome) (i : Nat) : Res (Sched × Outcome) := do
  match ← Sched.retain dbg p.1 i w with
  | (s, .unchanged) => return (s, p.2)
  | (s, .propagated) => return (s, .propagated)
  | _ => .error .unwrapNone

theorem retainStep_later {d W B : Int} (r : Room d (W + B)) (hW : 0 ≤ W) (hB : 0 ≤ B) (dbg : Bool) {g : Graph} (hv : Valid g) (hz : ZeroDiag g)
    (hg : Within B g) {p : Sched × Outcome} (h : NearOn W g p.1) (i : Nat) {w w' : Window} (hw : LaterW d W w w') :
    Moves (laterPair d) (fun p => NearOn (W + B) g p.1) (retainStep dbg w p i) (retainStep dbg w' (laterPair d p) i) := by
  unfold retainStep
  refine moves_bind (retain_later r hW hB dbg hv hz hg h i hw) fun q hq => ?_
  obtain ⟨t, o⟩ := q
  cases o
  · exact moves_ok (f := laterPair d) (x := (t, p.2)) hq
  · exact moves_ok (f := laterPair d) (x := (t, .propagated)) hq
  · exact moves_error
  · exact moves_error

theorem retainLoop_later {d B : Int} (hB : 0 ≤ B) (dbg : Bool) {g : Graph} (hv : Valid g) (hz : ZeroDiag g) (hg : Within B g) :
    ∀ (l : List Nat) (W : Int) (p : Sched × Outcome) (w w' : Window), Room d (W + l.length * B) → 0 ≤ W → NearOn W g p.1 → LaterW d W w w' →
      Moves (laterPair d) (fun p => NearOn (W + l.length * B) g p.1) (l.foldlM (retainStep dbg w) p)
        (l.foldlM (retainStep dbg w') (laterPair d p))
  | [], W, p, w, w', _, _, h, _ => moves_ok (by
      show NearOn (W + ((0 : Nat) : Int) * B) g p.1
      have : W + ((0 : Nat) : Int) * B = W := by omega
      rw [this]; exact h)
  | i :: l, W, p, w, w', r, hW, h, hw => by
    have e : W + ((i :: l).length : Nat) * B = W + B + (l.length : Nat) * B := by
      rw [List.length_cons]
      have : ((l.length + 1 : Nat) : Int) * B = B + (l.length : Nat) * B := by rw [Int.natCast_add, Int.add_mul]; omega
      omega
    rw [e] at r ⊢
    have nn : 0 ≤ ((l.length : Nat) : Int) * B := Int.mul_nonneg (by omega) hB
    rw [List.foldlM_cons, List.foldlM_cons]
    exact moves_bind (retainStep_later (room_mono r (by omega) (by omega)) hW hB dbg hv hz hg h i hw) fun q hq =>
      retainLoop_later hB dbg hv hz hg l (W + B) q w w' r (by omega) hq (laterW_mono hw (by omega))

theorem anySched_later {d : Int} {p p' : TSet → Bool} : ∀ {sch : List TSet}, (∀ w ∈ sch, p' (laterSet d w) = p w) →
    (sch.map (laterSet d)).any p' = sch.any p
  | [], _ => rfl
  | x :: s, h => by
    rw [List.map_cons, List.any_cons, List.any_cons, h x List.mem_cons_self, anySched_later fun i hi => h i (List.mem_cons_of_mem _ hi)]

theorem run_later {d W V B : Int} (hB : 0 ≤ B) (dbg : Bool) {g : Graph} (hv : Valid g) (hz : ZeroDiag g) (hg : Within B g) {s : Sched} {q : Req}
    (hW : 0 ≤ W) (hV : W + 1 ≤ V) (r : Room d (V + (Req.turns g.size q : Nat) * B)) (h : NearOn V g s) (hq : NearReq W q) :
    Moves (laterPair d) (fun p => NearOn (V + (Req.turns g.size q : Nat) * B) g p.1) (q.run dbg s) ((laterReq d q).run dbg (laterSched d s)) := by
  have nn : 0 ≤ ((Req.turns g.size q : Nat) : Int) * B := Int.mul_nonneg (by omega) hB
  have r0 : Room d V := room_mono r (by omega) (by omega)
  have r1 : Room d (W + 1) := room_mono r (by omega) (by omega)
  have win : ∀ w, NearWindow W w → LaterW d V w (laterWindow d w) := fun w hw => laterW_mono (window_later r1 hw) hV
  cases q with
  | retain i w =>
    have e : V + ((Req.turns g.size (.retain i w) : Nat) : Int) * B = V + B := by
      simp only [Req.turns, Int.natCast_one, Int.one_mul]
    rw [e] at r ⊢
    exact retain_later r (by omega) hB dbg hv hz hg h i (win w hq)
  | remove i w =>
    have e : V + ((Req.turns g.size (.remove i w) : Nat) : Int) * B = V + B := by
      simp only [Req.turns, Int.natCast_one, Int.one_mul]
    rw [e] at r ⊢
    exact retain_later r (by omega) hB dbg hv hz hg h i (laterW_mono (not_later r1 hq) hV)
  | deadline t =>
    change Moves _ _ (s.setDeadline dbg t) ((laterSched d s).setDeadline dbg (later d t))
    unfold Sched.setDeadline
    have t1 : Near (V + 1) t := near_mono hq (by omega)
    have any : (laterSched d s).schedule.any (fun tw => decide (TSet.lowerBound tw > later d t)) =
        s.schedule.any (fun tw => decide (TSet.lowerBound tw > t)) := by
      refine anySched_later fun x hx => ?_
      obtain ⟨e1, n1⟩ := lowerBound_later (d := d) (h.1 x hx)
      rw [e1]
      simp only [gt_iff_lt, later_lt r0 t1 (near_mono n1 (by omega))]
    rw [any]
    split
    · exact moves_ok (f := laterPair d) (x := (s, .recovered)) ⟨fun x hx => nearSet_mono (h.1 x hx) (by omega), h.2⟩
    · have e : ∀ w, (laterSched d s).retainAll dbg w = (List.range s.schedule.length).foldlM (retainStep dbg w) (laterPair d (s, .unchanged)) := by
        intro w
        unfold Sched.retainAll
        have : (laterSched d s).schedule.length = s.schedule.length := List.length_map ..
        rw [this]; rfl
      rw [e]
      have r' : Room d (V + ((List.range s.schedule.length).length : Nat) * B) := by rw [List.length_range, h.2.2]; exact r
      have := retainLoop_later hB dbg hv hz hg _ V (s, .unchanged) _ _ r' (by omega) h (win (.conv (.rangeToIncl t)) hq)
      rw [List.length_range] at this
      rw [← h.2.2] at r ⊢
      simp only [Req.turns]
      exact this
  | startline t =>
    change Moves _ _ (s.setStartline dbg t) ((laterSched d s).setStartline dbg (later d t))
    unfold Sched.setStartline
    have t1 : Near (V + 1) t := near_mono hq (by omega)
    have any : (laterSched d s).schedule.any (fun tw => decide (TSet.upperBound tw < later d t)) =
        s.schedule.any (fun tw => decide (TSet.upperBound tw < t)) := by
      refine anySched_later fun x hx => ?_
      obtain ⟨e1, n1⟩ := upperBound_later (d := d) (h.1 x hx)
      rw [e1]
      simp only [later_lt r0 (near_mono n1 (by omega)) t1]
    rw [any]
    split
    · exact moves_ok (f := laterPair d) (x := (s, .recovered)) ⟨fun x hx => nearSet_mono (h.1 x hx) (by omega), h.2⟩
    · have e : ∀ w, (laterSched d s).retainAll dbg w = (List.range s.schedule.length).foldlM (retainStep dbg w) (laterPair d (s, .unchanged)) := by
        intro w
        unfold Sched.retainAll
        have : (laterSched d s).schedule.length = s.schedule.length := List.length_map ..
        rw [this]; rfl
      rw [e]
      have r' : Room d (V + ((List.range s.schedule.length).length : Nat) * B) := by rw [List.length_range, h.2.2]; exact r
      have := retainLoop_later hB dbg hv hz hg _ V (s, .unchanged) _ _ r' (by omega) h (win (.conv (.rangeFrom t)) hq)
      rw [List.length_range] at this
      rw [← h.2.2] at r ⊢
      simp only [Req.turns]
      exact this

end Chrono
