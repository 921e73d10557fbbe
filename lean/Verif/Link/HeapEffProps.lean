import Verif.Link.HeapEff
set_option linter.unusedSectionVars false
/-! # C96 and C97 for the code generated from KeyValueHeap.ftl, BaseKeyHeap.ftl and BaseHeap.java -/
namespace Verif
open Heap HeapSpec HeapProof
open Verif.HeapEff (Effect)
variable {σ K V : Type} [BEq K] [BEq V]

namespace Link.HeapEffL

/-- One call, as an equation. -/
theorem step_eq {eff : Effect σ K} (fuel : Nat) (hfu : 2 ^ 31 ≤ fuel) {s : Heap K V} {a : Abs K V} (h : Inv s a)
    (hb : HeapL.Fits a) (o : Op K V) (hg : Guard o a) (u : σ)
    (hd : (HeapEff.step eff o ⟨s, u⟩).out = (Heap.step o s).out) : step eff fuel o ⟨s, u⟩ = HeapEff.step eff o ⟨s, u⟩ :=
  (step_sim fuel hfu h hb o hg u).toEq (by rw [hd]; exact HeapL.ok_ne_diverge h o hg)

/-- With keys it can compare, a history of the generated class does what it does with a comparator without effects. -/
theorem run_same {eff : Effect σ K} {C : Comparator K → Prop} {P : K → Prop} (hE : Comparable eff C P) (fuel : Nat)
    (hfu : 2 ^ 31 ≤ fuel) : ∀ (ops : List (Op K V)) (s : Heap K V) (a : Abs K V) (u : σ),
    Inv s a → HeapL.Fits a → HeapErase.Keys P a → C a.cmp → Guarded a ops → (∀ o ∈ ops, Uses C P o) →
    (runM (step eff fuel) ⟨s, u⟩ ops).1 = (runM (HeapL.step fuel) s ops).1 ∧
      (runM (step eff fuel) ⟨s, u⟩ ops).2.heap = (runM (HeapL.step fuel) s ops).2
  | [], s, a, u, _, _, _, _, _, _ => ⟨rfl, rfl⟩
  | o :: ops, s, a, u, h, hb, hP, hc, hg, hu => by
    have ho := hu o List.mem_cons_self
    obtain ⟨u', e⟩ := HeapErase.step_same hE h hP (by rw [h.cmp]; exact hc) o hg.1 ho u
    obtain ⟨-, h2, -⟩ := step_spec h o hg.1
    have key : (HeapEff.step eff o ⟨s, u⟩).out = (Heap.step o s).out ∧
        (HeapEff.step eff o ⟨s, u⟩).state = ⟨(Heap.step o s).state, u'⟩ := by
      rw [e]; unfold HeapErase.lifts; cases Heap.step o s <;> exact ⟨rfl, rfl⟩
    have e1 := step_eq fuel hfu h hb o hg.1 u key.1
    have e2 := HeapL.step_eq fuel hfu h hb o hg.1
    obtain ⟨i1, i2⟩ := run_same hE fuel hfu ops _ _ u' h2 (HeapL.after_fits o hb) (HeapErase.keys_after h hP o ho)
      (HeapErase.comp_after hc o ho) hg.2 (fun o' ho' => hu o' (List.mem_cons_of_mem _ ho'))
    simp only [runM]
    rw [e1, e2, key.1, key.2]
    exact ⟨by rw [i1], i2⟩

theorem first_keeps (eff : Effect σ K) (key : K) : ∀ (m : Nat) (i : Int),
    HeapEff.Keeps id (Gen.KeyValueHeapEff.getFirstEntry_loop1 (V := V) eff key m i)
  | 0, _ => .throw _
  | m + 1, i => by
    unfold Gen.KeyValueHeapEff.getFirstEntry_loop1
    refine .bind (.lift fun _ => rfl) fun _ => ?_
    split
    · refine .bind (.rd _ _) fun _ => .bind (.rd _ _) fun _ => .bind (.cmp _ _ _) fun r => ?_
      split
      · exact .pure _
      · exact first_keeps eff key m _
    · exact .pure _

theorem up_keeps (eff : Effect σ K) (key : K) : ∀ (f : Nat) (c : Int),
    HeapEff.Keeps Heap.size (Gen.KeyValueHeapEff.filterUp_loop1 (V := V) eff key f c)
  | 0, c => .throw _
  | f + 1, c => by
    unfold Gen.KeyValueHeapEff.filterUp_loop1
    split
    · refine .bind (.rd _ _) fun _ => .bind (.rd _ _) fun _ => .bind (.cmp _ _ _) fun r => ?_
      split
      · exact .pure _
      · exact .bind (.rd _ _) fun _ => .bind (.tree _ _) fun _ =>
          .bind (.rd _ _) fun _ => .bind (.inverse _ _) fun _ => up_keeps eff key f _
    · exact .pure _

theorem filterUp_keeps (eff : Effect σ K) (fuel : Nat) (key : K) (c e : Int) :
    HeapEff.Keeps Heap.size (Gen.KeyValueHeapEff.filterUp (V := V) eff fuel c key e) := by
  unfold Gen.KeyValueHeapEff.filterUp
  exact .bind (up_keeps _ _ _ _) fun _ => .bind (.tree _ _) fun _ => .bind (.inverse _ _) fun _ => .pure _

end Link.HeapEffL

/-- C96 for the generated class: after any guarded history, a call that respects `Guard` compares at most as often as
`maxCompares` says, and counting the comparisons changes neither its result nor the heap. -/
theorem C96_generated_comparisons {fuel : Nat} (hfu : 2 ^ 31 ≤ fuel) {c : Comparator K} {dk : K} {dv : V} {n : Int}
    (hn : n < 2 ^ 31) {ops : List (Op K V)} (hg : Guarded (empty c dk dv n) ops) {s : Heap K V}
    (hs : Link.HeapL.Made fuel c dk dv n ops s) (o : Op K V) (ho : Guard o (ideal (empty c dk dv n) ops)) (k : Nat) :
    ∃ j ≤ maxCompares (ideal (empty c dk dv n) ops) o,
      (Link.HeapEffL.step counting fuel o ⟨s, k⟩).out = (Link.HeapL.step fuel o s).out ∧
      (Link.HeapEffL.step counting fuel o ⟨s, k⟩).state = ⟨(Link.HeapL.step fuel o s).state, k + j⟩ := by
  have hm := hs.model hfu hn hg
  obtain ⟨j, hj, h1, h2⟩ := C96_comparisons hg hm o ho k
  refine ⟨j, hj, ?_⟩
  rw [Link.HeapEffL.step_eq fuel hfu (afterRun_spec hm hg).1 (Link.HeapL.ideal_fits ops hn) o ho k h1,
    Link.HeapL.eq1 hfu hn hg hm o ho]
  exact ⟨h1, h2⟩

/-- C97 for the generated class, where it holds: if the comparators used can compare all keys used, a history from the
constructor gives the results and the heap it gives with comparators that have no effects (C49 - C55). -/
theorem C97_generated_comparable_partial {eff : Effect σ K} {C : Comparator K → Prop} {P : K → Prop}
    (hE : Comparable eff C P) {fuel : Nat} (hfu : 2 ^ 31 ≤ fuel) {c : Comparator K} (hc : C c) {dk : K} {dv : V} {n : Int}
    (hn : n < 2 ^ 31) {s : Heap K V} (hs : Link.HeapL.Made fuel c dk dv n [] s) {ops : List (Op K V)}
    (hg : Guarded (empty c dk dv n) ops) (hu : ∀ o ∈ ops, Uses C P o) (u : σ) :
    (runM (Link.HeapEffL.step eff fuel) ⟨s, u⟩ ops).1 = (runM (Link.HeapL.step fuel) s ops).1 ∧
      (runM (Link.HeapEffL.step eff fuel) ⟨s, u⟩ ops).2.heap = (runM (Link.HeapL.step fuel) s ops).2 := by
  have hm := hs.model hfu hn (ops := []) trivial
  obtain ⟨i1, -⟩ := afterRun_spec hm (ops := []) trivial
  exact Link.HeapEffL.run_same hE fuel hfu ops s _ u i1 hn (fun _ he => absurd he List.not_mem_nil) hc hg hu

/-- C97 for the generated class: the searches leave the heap alone whatever the comparator does. -/
theorem C97_generated_reads (eff : Effect σ K) (fuel : Nat) (k : K) (t : Obs σ K V) :
    (Link.HeapEffL.step eff fuel (.containsKey k) t).state.heap = t.heap ∧
    (Link.HeapEffL.step eff fuel (.getFirstEntry k) t).state.heap = t.heap := by
  have hf : HeapEff.Keeps id (Gen.KeyValueHeapEff.getFirstEntry (V := V) eff fuel k) := by
    unfold Gen.KeyValueHeapEff.getFirstEntry
    refine .bind (Link.HeapEffL.first_keeps _ _ _ _) fun r => ?_
    cases r <;> exact .pure _
  exact ⟨(HeapEff.Keeps.bind (g := id) (HeapEff.Keeps.bind hf fun e => .pure (decide (e ≠ -1))) fun b => .pure (Out.bool b)) t,
    (HeapEff.Keeps.bind (g := id) hf fun e => .pure (Out.int e)) t⟩

/-- C97 is false of the generated `insert`, on every reachable heap with room: whatever the comparator does, and in
particular if it throws, the heap is one entry larger afterwards. -/
theorem C97_generated_insert_refuted {fuel : Nat} (hfu : 2 ^ 31 ≤ fuel) {c : Comparator K} {dk : K} {dv : V} {n : Int}
    (hn : n < 2 ^ 31) {ops : List (Op K V)} (hg : Guarded (empty c dk dv n) ops) {s : Heap K V}
    (hs : Link.HeapL.Made fuel c dk dv n ops s) (eff : Effect σ K) (k : K)
    (ho : Guard (.insert k) (ideal (empty c dk dv n) ops))
    (hroom : ¬ ((ideal (empty c dk dv n) ops).Full ∧ (ideal (empty c dk dv n) ops).Stuck)) (u : σ) :
    (Link.HeapL.step fuel .getSize s).out = .ok (.int (ideal (empty c dk dv n) ops).live.length) ∧
    (Link.HeapL.step fuel .getSize (Link.HeapEffL.step eff fuel (.insert k) ⟨s, u⟩).state.heap).out =
      .ok (.int ((ideal (empty c dk dv n) ops).live.length + 1)) := by
  have hm := hs.model hfu hn hg
  obtain ⟨r1, r2⟩ := C97_insert_refuted hg hm (fun _ _ _ => JM.throw .nullPointer : Effect Unit K) k ho hroom ()
  refine ⟨by rw [Link.HeapL.eq1 hfu hn hg hm .getSize trivial]; exact r1, ?_⟩
  -- the size after `allocateEntry`, in the model and in the generated code
  have key : ∀ (fu : HeapEff.Effect Unit K), ∀ e s1, allocateEntry k s = .ok e s1 →
      (HeapEff.step fu (.insert k) (⟨s, ()⟩ : Obs Unit K V)).state.heap.size = s1.size := by
    intro fu e s1 he
    have hk := HeapEff.Keeps.bind (HeapEff.filterUp_keeps fu k s.size e) (fun _ => .pure e) (⟨s1, ()⟩ : Obs Unit K V)
    have hi : HeapEff.insert fu k (⟨s, ()⟩ : Obs Unit K V) =
        (HeapEff.filterUp fu s.size k e >>= fun _ => pure e) (⟨s1, ()⟩ : Obs Unit K V) := by
      unfold HeapEff.insert
      rw [JM.bind_ok (Link.HeapEffL.lift_ok (JM.get_apply s) ())]
      dsimp only
      rw [JM.bind_ok (Link.HeapEffL.lift_ok he ())]
    rw [← hi] at hk
    show (Obs.heap (Res.state ((HeapEff.insert fu k >>= fun r => pure (Out.int r)) ⟨s, ()⟩))).size = _
    rw [JM.bind_apply]
    cases hx : HeapEff.insert fu k (⟨s, ()⟩ : Obs Unit K V) <;> (rw [hx] at hk; exact hk)
  obtain ⟨hI, -⟩ := afterRun_spec hm hg
  have hz := hI.sz; have h2 := hI.fc; have h3 := hI.big; have h4 := hI.cap; have h5 := hI.good.il
  have hfit := Link.HeapL.ideal_fits ops (show Link.HeapL.Fits (empty c dk dv n) from hn)
  unfold used at h3
  unfold Link.HeapL.Fits at hfit
  have hsim := Link.HeapL.allocate_sim k s (by omega) (by omega)
  cases he : allocateEntry k s with
  | err x s1 =>
    exfalso
    have o1 := (step_spec hI (.insert k) ho).1
    have : (Heap.step (.insert k) s).out = .error x := by
      show (((Heap.insert k) >>= fun r => pure (Out.int r)) s).out = _
      unfold Heap.insert
      rw [JM.bind_apply, JM.bind_ok (JM.get_apply _), JM.bind_apply, he]
      rfl
    rw [this] at o1
    have o1 : Except.error x = if (ideal (empty c dk dv n) ops).Full ∧ (ideal (empty c dk dv n) ops).Stuck then
      Except.error Err.resize else .ok (Out.int (ideal (empty c dk dv n) ops).entry) := o1
    rw [if_neg hroom] at o1
    cases o1
  | ok e s1 =>
    have hgen : Gen.KeyValueHeap.allocateEntry k s = .ok e s1 := by
      unfold Link.Sim at hsim
      rw [he] at hsim
      obtain ⟨b, hb, rfl⟩ := hsim
      exact hb
    have e1 := key (fun _ _ _ => JM.throw .nullPointer) e s1 he
    have hk := HeapEff.Keeps.bind (Link.HeapEffL.filterUp_keeps eff fuel k s.size e) (fun _ => .pure e) (⟨s1, u⟩ : Obs σ K V)
    have hi : Gen.KeyValueHeapEff.insert1 eff fuel k (⟨s, u⟩ : Obs σ K V) =
        (Gen.KeyValueHeapEff.filterUp eff fuel s.size k e >>= fun _ => pure e) (⟨s1, u⟩ : Obs σ K V) := by
      unfold Gen.KeyValueHeapEff.insert1
      rw [JM.bind_ok (Link.HeapEffL.lift_ok (JM.get_apply s) u)]
      dsimp only
      rw [JM.bind_ok (Link.HeapEffL.lift_ok hgen u)]
    rw [← hi] at hk
    have e2 : (Link.HeapEffL.step eff fuel (.insert k) (⟨s, u⟩ : Obs σ K V)).state.heap.size = s1.size := by
      show (Obs.heap (Res.state ((Gen.KeyValueHeapEff.insert1 eff fuel k >>= fun r => pure (Out.int r)) ⟨s, u⟩))).size = _
      rw [JM.bind_apply]
      cases hx : Gen.KeyValueHeapEff.insert1 eff fuel k (⟨s, u⟩ : Obs σ K V) <;> (rw [hx] at hk; exact hk)
    show Except.ok (Out.int (Link.HeapEffL.step eff fuel (.insert k) (⟨s, u⟩ : Obs σ K V)).state.heap.size) = _
    rw [e2, ← e1]
    exact r2

namespace Link.HeapEffL

/-- A heap of ints of the generated class after a history: how many comparisons each call made. -/
def counts (n : Int) (ops : List (Op Int Int)) : Option (List Nat) :=
  match Gen.KeyValueHeap.init1 Heap.asc (0 : Int) (0 : Int) n
      { tree := Arr.create 0 0, inverse := Arr.create 0 0, freeCount := 0, size := 0, keys := Arr.create 0 0, comp := asc,
        modCount := 0, defaultKey := 0, values := Arr.create 0 0, defaultValue := 0 } with
  | .ok _ s => some (ops.zipIdx.map fun p =>
      let before := (runM (step counting 40) ⟨s, 0⟩ (ops.take p.2)).2
      (step counting 40 p.1 before).state.ext - before.ext)
  | .err _ _ => none

/-- A heap of references with `Asc` (StringType.java:24) after a history, by the generated class. -/
def refRun (n : Int) (ops : List (Op (Option Nat) Int)) : Option (List (Except Err (Out (Option Nat) Int))) :=
  match Gen.KeyValueHeap.init1 (HeapEff.refAsc (fun x => x) asc.compare) none (0 : Int) n
      { tree := Arr.create 0 0, inverse := Arr.create 0 0, freeCount := 0, size := 0, keys := Arr.create 0 none,
        comp := HeapEff.refAsc (fun x => x) asc.compare, modCount := 0, defaultKey := none, values := Arr.create 0 0,
        defaultValue := 0 } with
  | .ok _ s => some (runM (step (throwing (Cmp.ascRef (fun x => (x : Int)) asc.compare)) 40) ⟨s, ()⟩ ops).1
  | .err _ _ => none

end Link.HeapEffL

/-- C97 is false of the generated `removeAt`: the run of `C97_remove_refuted`. -/
theorem C97_generated_remove_refuted :
    Link.HeapEffL.refRun 8 [.insert (some 1), .insert (some 2), .insert (some 3), .insert none, .insert (some 4), .getSize,
        .removeAt 0, .getSize, .peek, .getKeyAt 4, .getFirstEntry none, .removeAt 1, .getSize, .getFirstEntry none] =
      some [.ok (.int 0), .ok (.int 1), .ok (.int 2), .ok (.int 3), .ok (.int 4), .ok (.int 5), .error .nullPointer,
        .ok (.int 4), .ok (.int 1), .ok (.key (some 4)), .ok (.int 3), .ok .unit, .ok (.int 3), .ok (.int 1)] := by
  decide +kernel

/- Non-vacuity of `C96_generated_comparisons`: the comparisons of a history of eight calls. -/
example : Link.HeapEffL.counts 4
      [.insert 5, .insert 3, .insert 4, .insert 1, .insertKV 0 7, .resetKey 4 9, .removeAt 3, .containsKey 8] =
    some [0, 1, 1, 2, 2, 4, 3, 4] := by decide +kernel

/- Non-vacuity of `C97_generated_comparable_partial`: a history without null keys. -/
example : Link.HeapEffL.refRun 4 [.insert (some 2), .insert (some 1), .containsKey (some 1), .removeAt 0, .peek] =
    some [.ok (.int 0), .ok (.int 1), .ok (.bool true), .ok .unit, .ok (.int 1)] := by decide +kernel

end Verif
