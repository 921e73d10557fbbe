import Verif.Link.Heap
/-! # C51 - C55 and C71 for the code generated from KeyValueHeap.ftl, BaseKeyHeap.ftl and BaseHeap.java -/
namespace Verif
open Heap HeapSpec HeapProof
variable {K V : Type} [BEq K] [BEq V]

namespace Link.HeapL

/-- `s` is an object of the generated class: its constructor ran on an object whose counters are Java's zeros, with
initial capacity `n`, and then the calls `ops`. -/
def Made (fuel : Nat) (c : Comparator K) (dk : K) (dv : V) (n : Int) (ops : List (Op K V)) (s : Heap K V) : Prop :=
  ∃ (s₀ s₁ : Heap K V) (u : Unit), s₀.freeCount = 0 ∧ s₀.size = 0 ∧ Gen.KeyValueHeap.init1 c dk dv n s₀ = .ok u s₁ ∧
    s = (runM (step fuel) s₁ ops).2

theorem Made.model {fuel : Nat} (hfu : 2 ^ 31 ≤ fuel) {c : Comparator K} {dk : K} {dv : V} {n : Int} (hn : n < 2 ^ 31)
    {ops : List (Op K V)} (hg : Guarded (empty c dk dv n) ops) {s : Heap K V} (h : Made fuel c dk dv n ops s) :
    Heap.afterRun c dk dv n ops = some s := by
  obtain ⟨s₀, s₁, u, h1, h2, h3, rfl⟩ := h
  refine afterRun_model hfu hn h1 h2 hg (rs := (runM (step fuel) s₁ ops).1) ?_
  unfold afterRun
  rw [h3]

theorem eq1 {fuel : Nat} (hfu : 2 ^ 31 ≤ fuel) {c : Comparator K} {dk : K} {dv : V} {n : Int} (hn : n < 2 ^ 31)
    {ops : List (Op K V)} (hg : Guarded (empty c dk dv n) ops) {s : Heap K V} (hs : Heap.afterRun c dk dv n ops = some s)
    (o : Op K V) (ho : Guard o (ideal (empty c dk dv n) ops)) : step fuel o s = Heap.step o s :=
  step_eq fuel hfu (afterRun_spec hs hg).1 (ideal_fits ops hn) o ho

theorem eq2 {fuel : Nat} (hfu : 2 ^ 31 ≤ fuel) {c : Comparator K} {dk : K} {dv : V} {n : Int} (hn : n < 2 ^ 31)
    {ops : List (Op K V)} (hg : Guarded (empty c dk dv n) ops) {s : Heap K V} (hs : Heap.afterRun c dk dv n ops = some s)
    (o : Op K V) (ho : Guard o (ideal (empty c dk dv n) ops)) (o2 : Op K V)
    (h2 : Guard o2 (after o (ideal (empty c dk dv n) ops))) :
    step fuel o2 (Heap.step o s).state = Heap.step o2 (Heap.step o s).state :=
  step_eq fuel hfu (step_spec (afterRun_spec hs hg).1 o ho).2.1 (after_fits o (ideal_fits ops hn)) o2 h2

/-- The client loop `while (!heap.isEmpty()) { e = heap.peek(); keys.add(heap.getKeyAt(e)); heap.removeAt(e); }`, for
at most `rounds` rounds, on the generated class. -/
def drain (fuel : Nat) : Nat → JM (Heap K V) (List K)
  | 0 => pure []
  | rounds + 1 => do
    if ← Gen.KeyValueHeap.isEmpty then pure []
    else do
      let e ← Gen.KeyValueHeap.peek
      let k ← Gen.KeyValueHeap.getKeyAt e
      Gen.KeyValueHeap.removeAt fuel e
      let rest ← drain fuel rounds
      pure (k :: rest)

theorem wrap_inj {σ α β : Type} {f : α → β} (hf : ∀ x y, f x = f y → x = y) {m m' : JM σ α} {s : σ}
    (h : (m >>= fun x => pure (f x)) s = (m' >>= fun x => pure (f x)) s) : m s = m' s := by
  rw [JM.bind_apply, JM.bind_apply] at h
  cases h1 : m s <;> cases h2 : m' s <;> rw [h1, h2] at h <;> simp at h
  · obtain ⟨h3, h4⟩ := h; rw [hf _ _ h3, h4]
  · obtain ⟨h3, h4⟩ := h; rw [h3, h4]

theorem unit_inj {σ β : Type} {b : β} {m m' : JM σ Unit} {s : σ}
    (h : (m >>= fun _ => pure b) s = (m' >>= fun _ => pure b) s) : m s = m' s := by
  rw [JM.bind_apply, JM.bind_apply] at h
  cases h1 : m s <;> cases h2 : m' s <;> rw [h1, h2] at h <;> simp at h
  · rw [h]
  · obtain ⟨h3, h4⟩ := h; rw [h3, h4]

theorem drain_eq {fuel : Nat} (hfu : 2 ^ 31 ≤ fuel) : ∀ (rounds : Nat) {s : Heap K V} {a : Abs K V}, Inv s a → Fits a →
    drain fuel rounds s = Heap.drain rounds s
  | 0, _, _, _, _ => rfl
  | rounds + 1, s, a, h, hf => by
    rw [drain, Heap.drain]
    have q0 : (Gen.KeyValueHeap.isEmpty : JM (Heap K V) Bool) s = Heap.isEmpty s :=
      wrap_inj (f := Out.bool) (fun _ _ h => by injection h) (step_eq fuel hfu h hf .isEmpty trivial)
    have q0' : Heap.isEmpty s = .ok (decide (s.size = 0)) s := rfl
    rw [JM.bind_ok (q0.trans q0'), JM.bind_ok q0']
    split
    · rfl
    · rename_i h0
      have hl : a.live ≠ [] := fun hx => h0 (by simp [(live_nil h).1 hx])
      obtain ⟨p1, p2⟩ := (peek_spec h).2 hl
      have q1 : (Gen.KeyValueHeap.peek : JM (Heap K V) Int) s = Heap.peek s :=
        wrap_inj (f := Out.int) (fun _ _ h => by injection h) (step_eq fuel hfu h hf .peek trivial)
      rw [JM.bind_ok (q1.trans p2), JM.bind_ok p2]
      generalize s.tree.get 0 = e at *
      have q2 : (Gen.KeyValueHeap.getKeyAt e : JM (Heap K V) K) s = Heap.getKeyAt e s :=
        wrap_inj (f := Out.key) (fun _ _ h => by injection h) (step_eq fuel hfu h hf (.getKeyAt e) trivial)
      have hr := h.rng e (.inl p1)
      have hul := h.used_le
      have hkl := h.good.kl
      have q2' : Heap.getKeyAt e s = .ok (s.keys.get e) s := rd_ok _ (by omega)
      rw [JM.bind_ok (q2.trans q2'), JM.bind_ok q2']
      have hg : Guard (.removeAt e : Op K V) a := .inr (.inl (by unfold used at hr; omega))
      have q3 : (Gen.KeyValueHeap.removeAt fuel e : JM (Heap K V) Unit) s = Heap.removeAt e s :=
        unit_inj (b := Out.unit) (step_eq fuel hfu h hf (.removeAt e) hg)
      obtain ⟨s1, e1, e2, -⟩ := removeAt_live h p1
      have hf' : Fits (Abs.gone a e) := hf
      rw [JM.bind_ok (q3.trans e1), JM.bind_ok e1, JM.bind_apply, JM.bind_apply, drain_eq hfu rounds e2 hf']

end Link.HeapL

open Link.HeapL (Made)

/-- C51 for the generated code: taking `peek` and removing it until the heap is empty yields all live keys, each once,
in order, and leaves the heap empty. -/
theorem C51_generated_drain_sorts {P : K → Prop} {fuel : Nat} (hfu : 2 ^ 31 ≤ fuel) {c : Comparator K}
    (hc : TotalOn P c.compare) {dk : K} {dv : V} {n : Int} (hn : n < 2 ^ 31) {ops : List (Op K V)}
    (hg : Guarded (empty c dk dv n) ops) (hP : ∀ o ∈ ops, Sane P o) {s : Heap K V} (hs : Made fuel c dk dv n ops s)
    {rounds : Nat} (hr : (ideal (empty c dk dv n) ops).live.length ≤ rounds) :
    let a := ideal (empty c dk dv n) ops
    ∃ (l : List K) (s' : Heap K V), Link.HeapL.drain fuel rounds s = .ok l s' ∧ l.Perm (a.live.map a.keyOf) ∧
      l.Pairwise (fun x y => a.cmp.compare x y ≤ 0) ∧ (Link.HeapL.step fuel .getSize s').out = .ok (.int 0) := by
  have hm := hs.model hfu hn hg
  obtain ⟨i1, -⟩ := afterRun_spec hm hg
  rw [Link.HeapL.drain_eq hfu rounds i1 (Link.HeapL.ideal_fits ops hn)]
  exact C51_drain_sorts hc hg hP hm hr

/-- C52 for the generated code: `resetKey` on a live entry changes only that entry's key, and `peek` is a minimum
again. -/
theorem C52_generated_resetKey {P : K → Prop} {fuel : Nat} (hfu : 2 ^ 31 ≤ fuel) {c : Comparator K}
    (hc : TotalOn P c.compare) {dk : K} {dv : V} {n : Int} (hn : n < 2 ^ 31) {ops : List (Op K V)}
    (hg : Guarded (empty c dk dv n) ops) (hP : ∀ o ∈ ops, Sane P o) {s : Heap K V} (hs : Made fuel c dk dv n ops s)
    {e : Int} {k : K} (he : e ∈ (ideal (empty c dk dv n) ops).live) (hk : P k) :
    let a := ideal (empty c dk dv n) ops
    let step := Link.HeapL.step (K := K) (V := V) fuel
    let s' := (step (.resetKey e k) s).state
    (step (.resetKey e k) s).out = .ok .unit ∧
    (step (.getKeyAt e) s').out = .ok (.key k) ∧
    (∀ x, x ≠ e → (step (.getKeyAt x) s').out = (step (.getKeyAt x) s).out) ∧
    (∀ x, (step (.getValueAt x) s').out = (step (.getValueAt x) s).out) ∧
    (step .getSize s').out = (step .getSize s).out ∧
    ∃ m ∈ a.live, (step .peek s').out = .ok (.int m) ∧
      ∀ x ∈ a.live, ¬ a.cmp.compare (if x = e then k else a.keyOf x) (if m = e then k else a.keyOf m) < 0 := by
  have hm := hs.model hfu hn hg
  have k1 := Link.HeapL.eq1 hfu hn hg hm
  have hgd : Guard (.resetKey e k : Op K V) (ideal (empty c dk dv n) ops) := .inl he
  have k2 := Link.HeapL.eq2 hfu hn hg hm (.resetKey e k) hgd
  have := C52_resetKey hc hg hP hm he hk
  intro a
  simp only [k1 _ hgd, k2 .getSize trivial, k2 .peek trivial, k1 .getSize trivial, fun x => k1 (.getKeyAt x) trivial,
    fun x => k2 (.getKeyAt x) trivial, fun x => k1 (.getValueAt x) trivial, fun x => k2 (.getValueAt x) trivial]
  exact this

/-- C52 for the generated code: changing the comparator re-sorts the heap. -/
theorem C52_generated_setComparator {fuel : Nat} (hfu : 2 ^ 31 ≤ fuel) {c : Comparator K} {dk : K} {dv : V} {n : Int}
    (hn : n < 2 ^ 31) {ops : List (Op K V)} (hg : Guarded (empty c dk dv n) ops) {s : Heap K V}
    (hs : Made fuel c dk dv n ops s)
    {d : Comparator K} (hd : d.ref ≠ (ideal (empty c dk dv n) ops).cmp.ref)
    (ht : TotalOn (fun k => ∃ e ∈ (ideal (empty c dk dv n) ops).live, (ideal (empty c dk dv n) ops).keyOf e = k) d.compare) :
    let a := ideal (empty c dk dv n) ops
    let step := Link.HeapL.step (K := K) (V := V) fuel
    let s' := (step (.setComparator (some d)) s).state
    (step (.setComparator (some d)) s).out = .ok .unit ∧
    (∀ x, (step (.getKeyAt x) s').out = (step (.getKeyAt x) s).out) ∧
    (∀ x, (step (.getValueAt x) s').out = (step (.getValueAt x) s).out) ∧
    (step .getSize s').out = (step .getSize s).out ∧
    (a.live ≠ [] → ∃ m ∈ a.live, (step .peek s').out = .ok (.int m) ∧
      ∀ x ∈ a.live, ¬ d.compare (a.keyOf x) (a.keyOf m) < 0) := by
  have hm := hs.model hfu hn hg
  have k1 := Link.HeapL.eq1 hfu hn hg hm
  have hgd : Guard (.setComparator (some d) : Op K V) (ideal (empty c dk dv n) ops) := fun h => absurd h hd
  have k2 := Link.HeapL.eq2 hfu hn hg hm _ hgd
  have := C52_setComparator hg hm hd ht
  intro a
  simp only [k1 _ hgd, k2 .getSize trivial, k2 .peek trivial, k1 .getSize trivial, fun x => k1 (.getKeyAt x) trivial,
    fun x => k2 (.getKeyAt x) trivial, fun x => k1 (.getValueAt x) trivial, fun x => k2 (.getValueAt x) trivial]
  exact this

/-- The comparator set last, or that of the constructor (a null comparator is refused and changes nothing). -/
def lastSet (c : Comparator K) : List (Op K V) → Comparator K
  | [] => c
  | .setComparator (some d) :: ops => lastSet d ops
  | _ :: ops => lastSet c ops

theorem Link.HeapL.ideal_cmp : ∀ (ops : List (Op K V)) (a : Abs K V), (ideal a ops).cmp = lastSet a.cmp ops
  | [], _ => rfl
  | o :: ops, a => by
    have h := Link.HeapL.ideal_cmp ops (after o a)
    show (ideal (after o a) ops).cmp = _
    rw [h]
    cases o with
    | setComparator c => cases c <;> rfl
    | _ => simp only [after, lastSet] <;> (try split) <;> rfl

/-- C52 for the generated code: `getComparator()` is the comparator set last. -/
theorem C52_generated_getComparator {fuel : Nat} (hfu : 2 ^ 31 ≤ fuel) {c : Comparator K} {dk : K} {dv : V} {n : Int}
    (hn : n < 2 ^ 31) {ops : List (Op K V)} (hg : Guarded (empty c dk dv n) ops) {s : Heap K V}
    (hs : Made fuel c dk dv n ops s) : Gen.KeyValueHeap.getComparator s = .ok (some (lastSet c ops)) s := by
  have h := (afterRun_spec (hs.model hfu hn hg) hg).1.cmp
  rw [Link.HeapL.ideal_cmp] at h
  show Res.ok (some s.comp) s = _
  rw [h]; rfl

/-- C53 for the generated code (partial: for the entries `C53_removeAt_partial` is about): removing an entry that is not
live throws and changes nothing. -/
theorem C53_generated_removeAt_partial {fuel : Nat} (hfu : 2 ^ 31 ≤ fuel) {c : Comparator K} {dk : K} {dv : V} {n : Int}
    (hn : n < 2 ^ 31) {ops : List (Op K V)} (hg : Guarded (empty c dk dv n) ops) {s : Heap K V}
    (hs : Made fuel c dk dv n ops s) (e : Int) :
    let a := ideal (empty c dk dv n) ops
    (e < 0 ∨ a.cap ≤ e → Link.HeapL.step fuel (.removeAt e) s = .err .rangeCheck s) ∧
    (0 ≤ e → e < a.cap → e ∉ a.live → (a.live = [] ∨ e < a.live.length + a.freed.length) →
      Link.HeapL.step fuel (.removeAt e) s = .err .invalidEntry s) := by
  have hm := hs.model hfu hn hg
  have k1 := Link.HeapL.eq1 hfu hn hg hm
  have := C53_removeAt_partial hg hm e
  intro a
  refine ⟨fun h => ?_, fun h1 h2 h3 h4 => ?_⟩
  · rw [k1 (.removeAt e) (by rcases h with h | h; · exact .inr (.inl (by omega))
                             · exact .inr (.inr h))]
    exact this.1 h
  · rw [k1 (.removeAt e) (h4.elim .inl fun h => .inr (.inl h))]
    exact this.2 h1 h2 h3 h4

/-- C54 for the generated code (partial): what `forEachEntry` hands out and what `isValidEntry` says. -/
theorem C54_generated_reports_partial {fuel : Nat} (hfu : 2 ^ 31 ≤ fuel) {c : Comparator K} {dk : K} {dv : V} {n : Int}
    (hn : n < 2 ^ 31) {ops : List (Op K V)} (hg : Guarded (empty c dk dv n) ops) {s : Heap K V}
    (hs : Made fuel c dk dv n ops s) :
    let a := ideal (empty c dk dv n) ops
    (Link.HeapL.step fuel .forEachEntry s).out =
      .ok (.ints (((List.range a.live.length).map Int.ofNat).filter fun e => decide (e ∈ a.live))) ∧
    ∀ e, 0 ≤ e → ((Link.HeapL.step fuel (.isValidEntry e) s).out = .ok (.bool true) ↔
      e ∈ a.live ∨ (a.live ≠ [] ∧ (a.live.length + a.freed.length : Nat) ≤ e ∧ e < a.cap)) := by
  have hm := hs.model hfu hn hg
  have k1 := Link.HeapL.eq1 hfu hn hg hm
  have := C54_reports_partial hg hm
  intro a
  simp only [k1 .forEachEntry trivial, fun x => k1 (.isValidEntry x) trivial]
  exact this

/-- C54 for the generated code (partial: if nothing was removed, or every freed entry was taken again):
`forEachEntry` hands out every live entry exactly once. -/
theorem C54_generated_forEachEntry_no_holes_partial {fuel : Nat} (hfu : 2 ^ 31 ≤ fuel) {c : Comparator K} {dk : K} {dv : V}
    {n : Int} (hn : n < 2 ^ 31) {ops : List (Op K V)} (hg : Guarded (empty c dk dv n) ops) {s : Heap K V}
    (hs : Made fuel c dk dv n ops s) (hf : (ideal (empty c dk dv n) ops).freed = []) :
    ∃ l, (Link.HeapL.step fuel .forEachEntry s).out = .ok (.ints l) ∧ l.Nodup ∧
      ∀ e, e ∈ l ↔ e ∈ (ideal (empty c dk dv n) ops).live := by
  have hm := hs.model hfu hn hg
  rw [Link.HeapL.eq1 hfu hn hg hm .forEachEntry trivial]
  exact C54_forEachEntry_no_holes_partial hg hm hf

/-- C55 for the generated code (partial): `clear` empties the heap and keeps its capacity. -/
theorem C55_generated_clear_partial {fuel : Nat} (hfu : 2 ^ 31 ≤ fuel) {c : Comparator K} {dk : K} {dv : V} {n : Int}
    (hn : n < 2 ^ 31) {ops : List (Op K V)} (hg : Guarded (empty c dk dv n) ops) {s : Heap K V}
    (hs : Made fuel c dk dv n ops s) :
    let a := ideal (empty c dk dv n) ops
    let step := Link.HeapL.step (K := K) (V := V) fuel
    let s' := (step .clear s).state
    (step .clear s).out = .ok .unit ∧ (step .getSize s').out = .ok (.int 0) ∧
    (step .peek s').out = .error .runtime ∧ (step .getCapacity s').out = (step .getCapacity s).out ∧
    ∀ e : Int, 0 ≤ e → e < a.live.length →
      (step (.getKeyAt e) s').out = .ok (.key a.dk) ∧ (step (.getValueAt e) s').out = .ok (.val a.dv) := by
  have hm := hs.model hfu hn hg
  have k1 := Link.HeapL.eq1 hfu hn hg hm
  have k2 := Link.HeapL.eq2 hfu hn hg hm .clear trivial
  have := C55_clear_partial hg hm
  intro a
  simp only [k1 .clear trivial, k1 .getCapacity trivial, k2 .getSize trivial, k2 .peek trivial, k2 .getCapacity trivial,
    fun x => k2 (.getKeyAt x) trivial, fun x => k2 (.getValueAt x) trivial]
  exact this

/-- C71 for the generated code (partial): when an insertion throws, and what capacity it leaves. -/
theorem C71_generated_insert_capacity_partial {fuel : Nat} (hfu : 2 ^ 31 ≤ fuel) {c : Comparator K} {dk : K} {dv : V}
    {n : Int} (hn : n < 2 ^ 31) {ops : List (Op K V)} (hg : Guarded (empty c dk dv n) ops) {s : Heap K V}
    (hs : Made fuel c dk dv n ops s) (k : K) (hk : Guard (.insert k : Op K V) (ideal (empty c dk dv n) ops)) :
    let a := ideal (empty c dk dv n) ops
    let step := Link.HeapL.step (K := K) (V := V) fuel
    (a.Full ∧ a.Stuck → step (.insert k) s = .err .resize s) ∧
    (¬ (a.Full ∧ a.Stuck) → (∃ e, (step (.insert k) s).out = .ok (.int e)) ∧
      (step .getCapacity (step (.insert k) s).state).out =
        .ok (.int (if a.Full then min (2 * a.cap) (2 ^ 29) else a.cap)) ∧
      (step .getSize (step (.insert k) s).state).out = .ok (.int (a.live.length + 1))) := by
  have hm := hs.model hfu hn hg
  have k1 := Link.HeapL.eq1 hfu hn hg hm
  have k2 := Link.HeapL.eq2 hfu hn hg hm _ hk
  have := C71_insert_capacity_partial hg hm k hk
  intro a
  simp only [k1 _ hk, k2 .getCapacity trivial, k2 .getSize trivial]
  exact this

/-- A fresh object: Java's defaults in every field. -/
def Link.HeapL.fresh : Heap Int Int :=
  { tree := Arr.create 0 0, inverse := Arr.create 0 0, freeCount := 0, size := 0, keys := Arr.create 0 0, comp := asc,
    modCount := 0, defaultKey := 0, values := Arr.create 0 0, defaultValue := 0 }

/-- The results of a history of the generated class on a new heap of ints. -/
def Link.HeapL.results (n : Int) (ops : List (Op Int Int)) : Option (List (Except Err (Out Int Int))) :=
  (Link.HeapL.afterRun 40 asc (0 : Int) (0 : Int) n Link.HeapL.fresh ops).map Prod.fst

/- Non-vacuity: `Made` holds of what the generated constructor and calls make of `fresh`. -/
example (fuel : Nat) (ops : List (Op Int Int)) : ∃ s, Made fuel asc (0 : Int) (0 : Int) 2 ops s :=
  ⟨_, Link.HeapL.fresh, _, (), rfl, rfl, rfl, rfl⟩
example : (Link.HeapL.afterRun 40 asc (0 : Int) (0 : Int) 2 Link.HeapL.fresh Heap.demo).map
    (fun r => (Link.HeapL.drain 40 9 r.2).out) = (Heap.afterRun asc (0 : Int) (0 : Int) 2 Heap.demo).map
    (fun s => (Heap.drain 9 s).out) := by
  decide +kernel

/-- C53 is false of the generated code too: `removeAt` of an entry never handed out removes another one. -/
theorem C53_generated_removeAt_refuted :
    Link.HeapL.results 4 [.insert 5, .insert 3, .peek, .removeAt 3, .getSize, .peek] =
      some [.ok (.int 0), .ok (.int 1), .ok (.int 1), .ok .unit, .ok (.int 1), .ok (.int 0)] := by
  decide +kernel

/-- C54 is false of the generated code too: `forEachEntry` misses a live entry after a removal, and `isValidEntry` says
yes of an entry never handed out. -/
theorem C54_generated_reports_refuted :
    Link.HeapL.results 4 [.insert 5, .insert 3, .removeAt 0, .getSize, .forEachEntry, .isValidEntry 3] =
      some [.ok (.int 0), .ok (.int 1), .ok .unit, .ok (.int 1), .ok (.ints []), .ok (.bool true)] := by
  decide +kernel

/-- C55 is false of the generated code too: an entry inserted after `clear` has a value from before. -/
theorem C55_generated_clear_refuted :
    Link.HeapL.results 4 [.insertKV 1 10, .insertKV 2 20, .removeAt 0, .clear, .insert 7, .insert 8, .getValueAt 1] =
      some [.ok (.int 0), .ok (.int 1), .ok .unit, .ok .unit, .ok (.int 0), .ok (.int 1), .ok (.val 20)] := by
  decide +kernel

end Verif
