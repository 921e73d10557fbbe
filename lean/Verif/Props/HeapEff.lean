import Verif.Proofs.HeapErase
import Verif.Proofs.HeapCost
import Verif.Spec.HeapEff
import Verif.Props.Heap
import Verif.Model.Compare
/-! # Properties C96, C97: how often a heap compares, and comparators that throw

`HeapEff.step eff` is the heap with comparators whose calls have the effect `eff` (Model/HeapEff.lean): `counting`
adds one per call, `throwing` may throw. -/
namespace Verif
open Heap HeapSpec HeapProof
variable {σ K V : Type}

/-- C96: after any guarded history, a call that respects `Guard` compares at most as often as `maxCompares` says, and
counting the comparisons changes neither its result nor the heap. -/
theorem C96_comparisons [BEq K] [BEq V] {c : Comparator K} {dk : K} {dv : V} {n : Int} {ops : List (Op K V)}
    (hg : Guarded (empty c dk dv n) ops) {s : Heap K V} (hs : afterRun c dk dv n ops = some s)
    (o : Op K V) (ho : Guard o (ideal (empty c dk dv n) ops)) (k : Nat) :
    ∃ j ≤ maxCompares (ideal (empty c dk dv n) ops) o,
      (HeapEff.step counting o ⟨s, k⟩).out = (step o s).out ∧
      (HeapEff.step counting o ⟨s, k⟩).state = ⟨(step o s).state, k + j⟩ := by
  obtain ⟨h, -⟩ := afterRun_spec hs hg
  obtain ⟨j, hj, e⟩ := HeapCost.step_cost h o ho k
  refine ⟨j, hj, ?_⟩
  rw [e]; unfold HeapCost.lifts
  show _ ∧ _
  simp only
  cases step o s <;> exact ⟨rfl, rfl⟩

namespace HeapEff

/-- A heap of ints after a history: how many comparisons each call made. -/
def counts (n : Int) (ops : List (Op Int Int)) : Option (List Nat) :=
  match Heap.new Heap.asc 0 0 n with
  | .ok s => some (ops.zipIdx.map fun p =>
      let before := (runM (step counting) ⟨s, 0⟩ (ops.take p.2)).2
      (step counting p.1 before).state.ext - before.ext)
  | .error _ => none

/-- The references of `StringType.Asc` and `GenericType.Asc` as a comparator of the heap; what it would say of a key
that is not null and null is never used. -/
def refAsc (h : Nat → Int) (cmp : Int → Int → Int) : Comparator (Option Nat) :=
  ⟨0, fun a b => match Cmp.ascRef h cmp a b with | .ok r => r | .error _ => 0⟩

/-- A heap of references with `Asc` (StringType.java:24) after a history. -/
def refRun (n : Int) (ops : List (Op (Option Nat) Int)) : Option (List (Except Err (Out (Option Nat) Int))) :=
  match Heap.new (refAsc (fun x => x) asc.compare) none 0 n with
  | .ok s => some (runM (step (throwing (Cmp.ascRef (fun x => (x : Int)) asc.compare))) ⟨s, ()⟩ ops).1
  | .error _ => none

theorem lift_out {α : Type} (m : JM (Heap K V) α) (t : Obs σ K V) :
    (lift m t).out = (m t.heap).out ∧ (lift m t).state.heap = (m t.heap).state := by
  unfold lift
  show _ ∧ _
  simp only
  cases m t.heap <;> exact ⟨rfl, rfl⟩

/-- What `g` says of the heap is the same before and after `m`, whether or not `m` throws. -/
def Keeps {α γ : Type} (g : Heap K V → γ) (m : JM (Obs σ K V) α) : Prop := ∀ t, g (m t).state.heap = g t.heap

namespace Keeps
variable {α β γ : Type} {g : Heap K V → γ}

theorem bind {m : JM (Obs σ K V) α} {f : α → JM (Obs σ K V) β}
    (h : Keeps g m) (hf : ∀ a, Keeps g (f a)) : Keeps g (m >>= f) := by
  intro t
  have := h t
  rw [JM.bind_apply]
  cases e : m t with
  | ok a t' => rw [e] at this; exact (hf a t').trans this
  | err x t' => rw [e] at this; exact this

theorem pure (a : α) : Keeps (σ := σ) g (Pure.pure a) := fun _ => rfl

theorem throw (e : Err) : Keeps (σ := σ) g (JM.throw e : JM _ α) := fun _ => rfl

theorem lift {m : JM (Heap K V) α} (h : ∀ s, g (m s).state = g s) : Keeps (σ := σ) g (HeapEff.lift m) := fun t => by
  rw [(lift_out m t).2]; exact h _

theorem cmp (eff : Effect σ K) (x y : K) : Keeps g (cmpE (V := V) eff x y) := fun t => by
  unfold cmpE
  show g (Obs.heap (Res.state (match eff t.heap.comp x y t.ext with | .ok a e => _ | .err x e => _))) = _
  cases eff t.heap.comp x y t.ext <;> rfl

theorem rd (arr : Heap K V → Arr α) (i : Int) : Keeps (σ := σ) g (HeapEff.lift (Verif.rd arr i)) := lift fun s => by
  unfold Verif.rd; simp only; split <;> rfl

theorem wr {arr : Heap K V → Arr α} {put : Heap K V → Arr α → Heap K V} (hp : ∀ s x, g (put s x) = g s)
    (i : Int) (v : α) : Keeps (σ := σ) g (HeapEff.lift (Verif.wr arr put i v)) := lift fun s => by
  unfold Verif.wr; simp only; split
  · exact hp _ _
  · rfl

theorem tree (i v : Int) : Keeps (σ := σ) (Heap.size (K := K) (V := V)) (HeapEff.lift (wrTree i v)) := by
  unfold wrTree; refine wr ?_ _ _; exact fun _ _ => rfl

theorem inverse (i v : Int) : Keeps (σ := σ) (Heap.size (K := K) (V := V)) (HeapEff.lift (wrInverse i v)) := by
  unfold wrInverse; refine wr ?_ _ _; exact fun _ _ => rfl

end Keeps

/-- The searches never change the heap. -/
theorem first_keeps (eff : Effect σ K) (key : K) : ∀ (m : Nat) (i : Int),
    Keeps id (firstLoop (V := V) eff key m i)
  | 0, _ => .pure _
  | m + 1, i => by
    unfold firstLoop
    refine .bind (.rd _ _) fun _ => .bind (.rd _ _) fun _ => .bind (.cmp _ _ _) fun r => ?_
    split
    · exact .pure _
    · exact first_keeps eff key m (i + 1)

theorem up_keeps (eff : Effect σ K) (key : K) : ∀ (f : Nat) (c : Int),
    Keeps Heap.size (filterUpLoop (V := V) eff key f c)
  | 0, c => by
    unfold filterUpLoop
    split
    · exact .pure _
    · exact .throw _
  | f + 1, c => by
    unfold filterUpLoop
    split
    · exact .pure _
    · refine .bind (.rd _ _) fun _ => .bind (.rd _ _) fun _ => .bind (.cmp _ _ _) fun r => ?_
      split
      · exact .pure _
      · exact .bind (.rd _ _) fun _ => .bind (.tree _ _) fun _ =>
          .bind (.rd _ _) fun _ => .bind (.inverse _ _) fun _ => up_keeps eff key f _

theorem filterUp_keeps (eff : Effect σ K) (key : K) (c e : Int) : Keeps Heap.size (filterUp (V := V) eff c key e) := by
  unfold filterUp
  exact .bind (up_keeps _ _ _ _) fun _ => .bind (.tree _ _) fun _ =>
    .bind (.inverse _ _) fun _ => .pure _

end HeapEff
open HeapEff

/-- C97, where it holds: if the comparators used can compare all keys used, a history gives exactly the results and
the heap of Model/Heap.lean, of which C49 - C55 speak. -/
theorem C97_comparable_partial [BEq K] [BEq V] {eff : Effect σ K} {C : Comparator K → Prop} {P : K → Prop}
    (hE : Comparable eff C P) {c : Comparator K} (hc : C c) {dk : K} {dv : V} {n : Int} {s : Heap K V}
    (hs : Heap.new c dk dv n = .ok s) {ops : List (Op K V)} (hg : Guarded (empty c dk dv n) ops)
    (hu : ∀ o ∈ ops, Uses C P o) (u : σ) :
    (runM (HeapEff.step eff) ⟨s, u⟩ ops).1 = (runM Heap.step s ops).1 ∧
      (runM (HeapEff.step eff) ⟨s, u⟩ ops).2.heap = (runM Heap.step s ops).2 :=
  HeapErase.run_same hE ops s _ u (new_inv hs) (fun _ he => absurd he List.not_mem_nil) hc hg hu

/-- C97 for heaps of references ordered by `Asc`: without null keys no comparison throws. -/
theorem C97_asc_partial [BEq V] (h : Nat → Int) (cmp : Int → Int → Int) {dv : V} {n : Int} {s : Heap (Option Nat) V}
    (hs : Heap.new (refAsc h cmp) none dv n = .ok s) {ops : List (Op (Option Nat) V)}
    (hg : Guarded (empty (refAsc h cmp) none dv n) ops) (hu : ∀ o ∈ ops, Uses (· = refAsc h cmp) (· ≠ none) o) :
    (runM (HeapEff.step (throwing (Cmp.ascRef h cmp))) ⟨s, ()⟩ ops).1 = (runM Heap.step s ops).1 := by
  refine (C97_comparable_partial (C := (· = refAsc h cmp)) (P := (· ≠ none)) ?_ rfl hs hg hu ()).1
  intro c x y u hc hx hy
  subst hc
  cases x with
  | none => exact absurd rfl hx
  | some x =>
    cases y with
    | none => exact absurd rfl hy
    | some y =>
      unfold throwing refAsc Cmp.ascRef Cmp.nullableCompare
      refine ⟨u, ?_⟩
      show (match (if some x = some y then _ else _ : Except Err Int) with | .ok r => _ | .error e => _) = _
      split <;> rename_i heq <;> simp only [heq]
      split at heq <;> simp at heq

/-- C97: `containsKey` and `getFirstEntry` leave the heap alone whatever the comparator does. -/
theorem C97_reads [BEq K] [BEq V] (eff : Effect σ K) (k : K) (t : Obs σ K V) :
    (HeapEff.step eff (.containsKey k) t).state.heap = t.heap ∧
    (HeapEff.step eff (.getFirstEntry k) t).state.heap = t.heap := by
  have hf : Keeps id (getFirstEntry (V := V) eff k) := .bind (.lift fun s => rfl) fun s => first_keeps _ _ _ _
  exact ⟨(Keeps.bind (g := id) (Keeps.bind hf fun e => .pure (decide (e ≠ -1))) fun b => .pure (Out.bool b)) t,
    (Keeps.bind (g := id) hf fun e => .pure (Out.int e)) t⟩

/-- C97 is false of `insert`, on every reachable heap with room: whatever the comparator does, and in particular if
it throws and the caller never gets an entry, the heap is one entry larger afterwards. -/
theorem C97_insert_refuted [BEq K] [BEq V] {c : Comparator K} {dk : K} {dv : V} {n : Int} {ops : List (Op K V)}
    (hg : Guarded (empty c dk dv n) ops) {s : Heap K V} (hs : afterRun c dk dv n ops = some s) (eff : Effect σ K)
    (k : K) (ho : Guard (.insert k) (ideal (empty c dk dv n) ops))
    (hroom : ¬ ((ideal (empty c dk dv n) ops).Full ∧ (ideal (empty c dk dv n) ops).Stuck)) (u : σ) :
    (Heap.step .getSize s).out = .ok (.int (ideal (empty c dk dv n) ops).live.length) ∧
    (Heap.step .getSize (HeapEff.step eff (.insert k) ⟨s, u⟩).state.heap).out =
      .ok (.int ((ideal (empty c dk dv n) ops).live.length + 1)) := by
  obtain ⟨h, -⟩ := afterRun_spec hs hg
  refine ⟨(step_spec h .getSize trivial).1, ?_⟩
  obtain ⟨o1, o2, -⟩ := step_spec h (.insert k) ho
  generalize ideal (empty c dk dv n) ops = a at *
  have hsz : ∃ e s1, allocateEntry k s = .ok e s1 := by
    cases he : allocateEntry k s with
    | ok e s1 => exact ⟨e, s1, rfl⟩
    | err x s1 =>
      exfalso
      have : (Heap.step (.insert k) s).out = .error x := by
        show (((Heap.insert k) >>= fun r => pure (Out.int r)) s).out = _
        unfold Heap.insert
        rw [JM.bind_apply, JM.bind_ok (JM.get_apply _), JM.bind_apply, he]
        rfl
      rw [this] at o1
      have o1 : Except.error x = if a.Full ∧ a.Stuck then Except.error Err.resize else .ok (Out.int a.entry) := o1
      rw [if_neg hroom] at o1
      cases o1
  obtain ⟨e, s1, he⟩ := hsz
  have hsz1 : s1.size = s.size + 1 :=
    (HeapErase.alloc_but (P := fun _ => True) h (fun _ _ => trivial) trivial ho.2 he).1
  have hfin : (HeapEff.step eff (.insert k) ⟨s, u⟩).state.heap.size = s1.size := by
    have hl : HeapEff.lift (allocateEntry k) (⟨s, u⟩ : Obs σ K V) = .ok e ⟨s1, u⟩ := by
      unfold HeapEff.lift
      simp only [he]
    have hi : HeapEff.insert eff k (⟨s, u⟩ : Obs σ K V) =
        (filterUp eff s.size k e >>= fun _ => pure e) (⟨s1, u⟩ : Obs σ K V) := by
      unfold HeapEff.insert
      have hgt : HeapEff.lift get (⟨s, u⟩ : Obs σ K V) = .ok s ⟨s, u⟩ := rfl
      rw [JM.bind_ok hgt]
      dsimp only
      rw [JM.bind_ok hl]
    have hk := Keeps.bind (filterUp_keeps eff k s.size e) (fun _ => .pure e) ⟨s1, u⟩
    rw [← hi] at hk
    show (Obs.heap (Res.state ((HeapEff.insert eff k >>= fun r => pure (Out.int r)) ⟨s, u⟩))).size = _
    rw [JM.bind_apply]
    cases hx : HeapEff.insert eff k (⟨s, u⟩ : Obs σ K V) <;> (rw [hx] at hk; exact hk)
  show Except.ok (Out.int (HeapEff.step eff (.insert k) ⟨s, u⟩).state.heap.size) = _
  rw [hfin, hsz1, h.sz]

/-- C97 is false of `insert`, a run: "b" is compared with the null key already there, `insert` throws, and a second
entry has appeared; `peek` and `containsKey` cannot tell it from the first. -/
theorem C97_insert_run_refuted :
    refRun 4 [.insert none, .insert (some 2), .getSize, .peek, .removeAt 0, .getSize, .peek] =
      some [.ok (.int 0), .error .nullPointer, .ok (.int 2), .ok (.int 0), .ok .unit, .ok (.int 1), .ok (.int 0)] := by
  decide +kernel

/-- C97 is false of `removeAt`: the keys "a", "b", "c", null, "d" are accepted, but the removal of "a" throws halfway:
"a" is gone, the size has shrunk, "b" is in the heap twice and "d" no more, although its entry still holds its key.
Removing "b" then leaves its entry in the heap: the search for null, which is in the heap, finds it. -/
theorem C97_remove_refuted :
    refRun 8 [.insert (some 1), .insert (some 2), .insert (some 3), .insert none, .insert (some 4), .getSize, .removeAt 0,
        .getSize, .peek, .getKeyAt 4, .getFirstEntry none, .removeAt 1, .getSize, .getFirstEntry none] =
      some [.ok (.int 0), .ok (.int 1), .ok (.int 2), .ok (.int 3), .ok (.int 4), .ok (.int 5), .error .nullPointer,
        .ok (.int 4), .ok (.int 1), .ok (.key (some 4)), .ok (.int 3), .ok .unit, .ok (.int 3), .ok (.int 1)] := by
  decide +kernel

/- Non-vacuity of `C96_comparisons`: the comparisons of a history of eight calls; each is within the bound. -/
example : counts 4 [.insert 5, .insert 3, .insert 4, .insert 1, .insertKV 0 7, .resetKey 4 9, .removeAt 3, .containsKey 8] =
    some [0, 1, 1, 2, 2, 4, 3, 4] := by decide +kernel

/- Non-vacuity of `C97_asc_partial`: a history without null keys. -/
example : refRun 4 [.insert (some 2), .insert (some 1), .containsKey (some 1), .removeAt 0, .peek] =
    some [.ok (.int 0), .ok (.int 1), .ok (.bool true), .ok .unit, .ok (.int 1)] := by decide +kernel

end Verif
