import Verif.Proofs.Heap6
import Mathlib.Data.List.Nodup
set_option linter.unusedSectionVars false
/-! # Properties C49 - C55, C71: the heap

`step` is the model, `ideal` and `Ok` the specification (Spec/Heap.lean): which entries are live, their
keys and values, without any tree.  `Guarded` says what callers must respect; the properties that fail
without it are the `_refuted` theorems below. -/
namespace Verif
open Heap HeapSpec HeapProof
variable {K V : Type}

namespace Heap

/-- `Integer.compare`, as object number 0. -/
def asc : Comparator Int := ⟨0, fun a b => if a < b then -1 else if b < a then 1 else 0⟩
/-- The reverse, as object number 1. -/
def desc : Comparator Int := ⟨1, fun a b => if a < b then 1 else if b < a then -1 else 0⟩

theorem asc_total : TotalOn (fun _ => True) asc.compare := by
  constructor
  · intro a b _ _
    show (if a < b then (-1 : Int) else if b < a then 1 else 0) ≤ 0 ↔ 0 ≤ (if b < a then (-1 : Int) else if a < b then 1 else 0)
    split <;> split <;> (try split) <;> omega
  · intro x y z _ _ _
    show (if x < y then (-1 : Int) else if y < x then 1 else 0) ≤ 0 → (if y < z then (-1 : Int) else if z < y then 1 else 0) ≤ 0 →
      (if x < z then (-1 : Int) else if z < x then 1 else 0) ≤ 0
    split <;> split <;> split <;> (try split) <;> (try split) <;> (try split) <;> omega

theorem desc_total : TotalOn (fun _ => True) desc.compare := by
  constructor
  · intro a b _ _
    show (if a < b then (1 : Int) else if b < a then -1 else 0) ≤ 0 ↔ 0 ≤ (if b < a then (1 : Int) else if a < b then -1 else 0)
    split <;> split <;> (try split) <;> omega
  · intro x y z _ _ _
    show (if x < y then (1 : Int) else if y < x then -1 else 0) ≤ 0 → (if y < z then (1 : Int) else if z < y then -1 else 0) ≤ 0 →
      (if x < z then (1 : Int) else if z < x then -1 else 0) ≤ 0
    split <;> split <;> split <;> (try split) <;> (try split) <;> (try split) <;> omega

/-- The operation changes the entry `e` itself. -/
def Touches (e : Int) : Op K V → Prop
  | .removeAt x | .resetKey x _ | .setValueAt x _ => x = e
  | .clear => True
  | _ => False

/-- A new heap with capacity `n` after a history. -/
def afterRun [BEq K] [BEq V] (c : Comparator K) (dk : K) (dv : V) (n : Int) (ops : List (Op K V)) : Option (Heap K V) :=
  match Heap.new c dk dv n with
  | .ok s => some (runM step s ops).2
  | .error _ => none

theorem afterRun_spec [BEq K] [BEq V] {c : Comparator K} {dk : K} {dv : V} {n : Int} {ops : List (Op K V)}
    {s : Heap K V} (hs : afterRun c dk dv n ops = some s) (hg : Guarded (empty c dk dv n) ops) :
    Inv s (ideal (empty c dk dv n) ops) ∧
      ∀ P, TotalOn P c.compare → (∀ o ∈ ops, Sane P o) → Ordered P s (ideal (empty c dk dv n) ops) := by
  unfold afterRun at hs
  split at hs
  · rename_i s0 h0
    simp at hs; subst hs
    obtain ⟨_, h2, h3⟩ := run_spec ops s0 _ (new_inv h0) hg
    exact ⟨h2, fun P hP hS => h3 P (new_ordered h0 hP) hS⟩
  · simp at hs

theorem entry_fresh {s : Heap K V} {a : Abs K V} (h : Inv s a) : a.entry ∉ a.live := by
  intro hm
  unfold Abs.entry at hm
  cases hf : a.freed with
  | nil =>
    rw [hf] at hm
    have := h.rng _ (.inl hm)
    unfold used at this
    rw [hf] at this
    simp at this
  | cons x xs =>
    rw [hf] at hm
    exact h.disj hm (by rw [hf]; simp)

theorem keep [BEq K] [BEq V] {s : Heap K V} {a : Abs K V} (h : Inv s a) {e : Int} (he : e ∈ a.live) {o : Op K V}
    (ho : ¬ Touches e o) :
    e ∈ (after o a).live ∧ (after o a).keyOf e = a.keyOf e ∧ (after o a).valOf e = a.valOf e := by
  have hfresh : e ≠ a.entry := fun hx => entry_fresh h (hx ▸ he)
  have hne : a.live ≠ [] := fun hx => by rw [hx] at he; simp at he
  cases o with
  | insert k =>
    simp only [after]
    split
    · exact ⟨he, rfl, rfl⟩
    · refine ⟨List.mem_cons_of_mem _ he, ?_, rfl⟩
      show upd a.keyOf a.entry k e = _
      unfold upd; rw [if_neg hfresh]
  | insertKV k v =>
    simp only [after]
    split
    · exact ⟨he, rfl, rfl⟩
    · refine ⟨List.mem_cons_of_mem _ he, ?_, ?_⟩
      · show upd a.keyOf a.entry k e = _
        unfold upd; rw [if_neg hfresh]
      · show upd a.valOf a.entry v e = _
        unfold upd; rw [if_neg hfresh]
  | removeAt x =>
    have hx : e ≠ x := fun hx => ho hx.symm
    simp only [after]
    split
    · refine ⟨(h.nd.mem_erase_iff).2 ⟨hx, he⟩, ?_, ?_⟩ <;> (simp only [upd]; rw [if_neg hx])
    · exact ⟨he, rfl, rfl⟩
  | resetKey x k =>
    have hx : e ≠ x := fun hx => ho hx.symm
    simp only [after]
    split
    · refine ⟨he, ?_, rfl⟩; simp only [upd]; rw [if_neg hx]
    · exact ⟨he, rfl, rfl⟩
  | setValueAt x v =>
    have hx : e ≠ x := fun hx => ho hx.symm
    simp only [after]
    split
    · refine ⟨he, rfl, ?_⟩; simp only [upd]; rw [if_neg hx]
    · exact ⟨he, rfl, rfl⟩
  | clear => exact absurd trivial ho
  | setDefaultKey k => simp only [after]; rw [if_pos (.inl hne)]; exact ⟨he, rfl, rfl⟩
  | setDefaultValue v => simp only [after]; rw [if_pos (.inl hne)]; exact ⟨he, rfl, rfl⟩
  | setComparator c => cases c <;> exact ⟨he, rfl, rfl⟩
  | _ => exact ⟨he, rfl, rfl⟩

theorem keep_run [BEq K] [BEq V] : ∀ (ops : List (Op K V)) {s : Heap K V} {a : Abs K V}, Inv s a → Guarded a ops →
    ∀ {e : Int}, e ∈ a.live → (∀ o ∈ ops, ¬ Touches e o) →
    e ∈ (ideal a ops).live ∧ (ideal a ops).keyOf e = a.keyOf e ∧ (ideal a ops).valOf e = a.valOf e
  | [], _, _, _, _, _, he, _ => ⟨he, rfl, rfl⟩
  | o :: ops, s, a, h, hg, e, he, ht => by
    obtain ⟨k1, k2, k3⟩ := keep h he (ht o List.mem_cons_self)
    obtain ⟨m1, m2, m3⟩ := keep_run ops (step_spec h o hg.1).2.1 hg.2 k1
      (fun o' ho' => ht o' (List.mem_cons_of_mem _ ho'))
    exact ⟨m1, m2.trans k2, m3.trans k3⟩

theorem guarded_append [BEq K] [BEq V] : ∀ (ops ps : List (Op K V)) (a : Abs K V),
    Guarded a (ops ++ ps) ↔ Guarded a ops ∧ Guarded (ideal a ops) ps
  | [], ps, a => by simp [Guarded, ideal]
  | o :: ops, ps, a => by
    have := guarded_append ops ps (after o a)
    simp only [List.cons_append, Guarded, this, and_assoc]; rfl

theorem ideal_append [BEq K] [BEq V] (a : Abs K V) (ops ps : List (Op K V)) :
    ideal a (ops ++ ps) = ideal (ideal a ops) ps := by simp [ideal, List.foldl_append]

theorem live_in {s : Heap K V} {a : Abs K V} (h : Inv s a) {e : Int} (he : e ∈ a.live) : 0 ≤ e ∧ e < a.cap := by
  have := h.rng e (.inl he)
  have := h.used_le
  have := h.cap
  omega

theorem out_of_call [BEq K] [BEq V] {s : Heap K V} {a : Abs K V} (h : Inv s a) {e : Int} (he : e ∈ a.live) :
    (step (.getKeyAt e) s).out = .ok (.key (a.keyOf e)) ∧ (step (.getValueAt e) s).out = .ok (.val (a.valOf e)) ∧
    (step (.isValidEntry e) s).out = .ok (.bool true) := by
  have hr := live_in h he
  refine ⟨?_, ?_, ?_⟩
  · have := (step_spec h (.getKeyAt e) trivial).1
    simp only [Ok] at this
    rw [this, if_pos hr]
  · have := (step_spec h (.getValueAt e) trivial).1
    simp only [Ok] at this
    rw [this, if_pos hr]
  · have := (step_spec h (.isValidEntry e) trivial).1
    simp only [Ok] at this
    rw [this, if_neg (by omega)]
    simp [he]

theorem peek_min [BEq K] [BEq V] {P : K → Prop} {s : Heap K V} {a : Abs K V} (h : Inv s a) (ho : Ordered P s a) :
    (a.live = [] → (step .peek s).out = .error .runtime) ∧
    (a.live ≠ [] → ∃ e ∈ a.live, (step .peek s).out = .ok (.int e) ∧
      ∀ x ∈ a.live, ¬ a.cmp.compare (a.keyOf x) (a.keyOf e) < 0) := by
  obtain ⟨p1, p2⟩ := peek_spec h
  constructor
  · intro hl
    simp only [step]
    rw [JM.bind_err (p1 hl)]; rfl
  · intro hl
    obtain ⟨q1, q2⟩ := p2 hl
    refine ⟨_, q1, ?_, fun x hx => ?_⟩
    · simp only [step]; rw [JM.bind_ok q2]; rfl
    · have h1 := root_min h ho x hx
      have h2 := (ho.tot.symm _ _ (ho.keys _ q1) (ho.keys _ hx)).1 (by rw [h.cmp]; exact h1)
      rw [h.cmp] at h2
      omega

end Heap

section
variable [BEq K] [BEq V]

/-! ## C49 -/

/-- C49: after every guarded history, under a comparator that orders the keys, `peek()` throws exactly when
no entry is live and otherwise returns a live entry that no live key precedes. -/
theorem C49_peek_is_minimum {P : K → Prop} {c : Comparator K} (hc : TotalOn P c.compare) {dk : K} {dv : V}
    {n : Int} {ops : List (Op K V)} (hg : Guarded (empty c dk dv n) ops) (hP : ∀ o ∈ ops, Sane P o)
    {s : Heap K V} (hs : afterRun c dk dv n ops = some s) :
    let a := ideal (empty c dk dv n) ops
    (a.live = [] → (step .peek s).out = .error .runtime) ∧
    (a.live ≠ [] → ∃ e ∈ a.live, (step .peek s).out = .ok (.int e) ∧
      ∀ x ∈ a.live, ¬ a.cmp.compare (a.keyOf x) (a.keyOf e) < 0) := by
  obtain ⟨h1, h2⟩ := afterRun_spec hs hg
  exact peek_min h1 (h2 P hc hP)

/-- C49: a new heap exists exactly for a non-negative capacity, so the histories above are all. -/
theorem C49_new (c : Comparator K) (dk : K) (dv : V) (n : Int) (ops : List (Op K V)) :
    (∃ s, afterRun c dk dv n ops = some s) ↔ 0 ≤ n := by
  unfold afterRun Heap.new
  by_cases h : n < 0
  · rw [if_pos h]; simp; omega
  · rw [if_neg h]; simp; omega

/-! ## C50 -/

/-- C50: the results of every call of a guarded history are those of the ideal heap. -/
theorem C50_results {c : Comparator K} {dk : K} {dv : V} {n : Int} {ops : List (Op K V)}
    (hg : Guarded (empty c dk dv n) ops) {s : Heap K V} (hs : Heap.new c dk dv n = .ok s) :
    Legal (empty c dk dv n) ops (runM step s ops).1 :=
  (run_spec ops s _ (new_inv hs) hg).1

/-- C50: while no call touches the entry that `insert(key, value)` returned, it stays live, keeps key
and value whatever else happens (growth included), and no insertion returns it again. -/
theorem C50_stable_handle {c : Comparator K} {dk : K} {dv : V} {n : Int} {ops₁ ops₂ : List (Op K V)} {k : K} {v : V}
    (hg : Guarded (empty c dk dv n) (ops₁ ++ .insertKV k v :: ops₂))
    {s₁ s₂ : Heap K V} (hs₁ : afterRun c dk dv n ops₁ = some s₁)
    (hs₂ : afterRun c dk dv n (ops₁ ++ .insertKV k v :: ops₂) = some s₂)
    {e : Int} (he : (step (.insertKV k v) s₁).out = .ok (.int e)) (ht : ∀ o ∈ ops₂, ¬ Touches e o) :
    (step (.getKeyAt e) s₂).out = .ok (.key k) ∧ (step (.getValueAt e) s₂).out = .ok (.val v) ∧
    (step (.isValidEntry e) s₂).out = .ok (.bool true) ∧
    ∀ k' v', Guard (.insert k' : Op K V) (ideal (empty c dk dv n) (ops₁ ++ .insertKV k v :: ops₂)) →
      (step (.insert k') s₂).out ≠ .ok (.int e) ∧ (step (.insertKV k' v') s₂).out ≠ .ok (.int e) := by
  obtain ⟨g1, g2⟩ := (guarded_append ops₁ _ _).1 hg
  obtain ⟨h1, -⟩ := afterRun_spec hs₁ g1
  obtain ⟨h2, -⟩ := afterRun_spec hs₂ hg
  obtain ⟨r1, r2, -⟩ := step_spec h1 (.insertKV k v) g2.1
  have hfull : ¬ ((ideal (empty c dk dv n) ops₁).Full ∧ (ideal (empty c dk dv n) ops₁).Stuck) := by
    intro hx
    simp only [Ok] at r1
    rw [if_pos hx, he] at r1
    simp at r1
  simp only [Ok] at r1
  rw [if_neg hfull, he] at r1
  simp only [Except.ok.injEq, Out.int.injEq] at r1
  have hlive : e ∈ (after (.insertKV k v) (ideal (empty c dk dv n) ops₁)).live := by
    simp only [after]; rw [if_neg hfull, r1]; exact List.mem_cons_self
  have hk : (after (.insertKV k v) (ideal (empty c dk dv n) ops₁)).keyOf e = k := by
    simp only [after]; rw [if_neg hfull, r1]; simp [Abs.insert, upd]
  have hv : (after (.insertKV k v) (ideal (empty c dk dv n) ops₁)).valOf e = v := by
    simp only [after]; rw [if_neg hfull, r1]; simp [upd]
  obtain ⟨m1, m2, m3⟩ := keep_run ops₂ r2 g2.2 hlive ht
  have hid : ideal (empty c dk dv n) (ops₁ ++ .insertKV k v :: ops₂) =
      ideal (after (.insertKV k v) (ideal (empty c dk dv n) ops₁)) ops₂ := by
    rw [ideal_append]; rfl
  rw [← hid] at m1 m2 m3
  obtain ⟨o1, o2, o3⟩ := out_of_call h2 m1
  rw [m2, hk] at o1
  rw [m3, hv] at o2
  refine ⟨o1, o2, o3, fun k' v' hgd => ?_⟩
  have hfresh : e ≠ (ideal (empty c dk dv n) (ops₁ ++ .insertKV k v :: ops₂)).entry :=
    fun hx => entry_fresh h2 (hx ▸ m1)
  constructor
  · have := (step_spec h2 (.insert k') hgd).1
    simp only [Ok] at this
    rw [this]
    split
    · simp
    · simpa using fun hx => hfresh hx.symm
  · have := (step_spec h2 (.insertKV k' v') hgd).1
    simp only [Ok] at this
    rw [this]
    split
    · simp
    · simpa using fun hx => hfresh hx.symm

/-- C50: live entries are distinct, and `size` counts them. -/
theorem C50_distinct {c : Comparator K} {dk : K} {dv : V} {n : Int} {ops : List (Op K V)}
    (hg : Guarded (empty c dk dv n) ops) {s : Heap K V} (hs : afterRun c dk dv n ops = some s) :
    (ideal (empty c dk dv n) ops).live.Nodup ∧
    (step .getSize s).out = .ok (.int (ideal (empty c dk dv n) ops).live.length) := by
  obtain ⟨h1, -⟩ := afterRun_spec hs hg
  exact ⟨h1.nd, (step_spec h1 .getSize trivial).1⟩

/-! ## C51 -/

/-- C51: taking `peek` and removing it until the heap is empty yields all live keys, each once, in order,
and leaves the heap empty. -/
theorem C51_drain_sorts {P : K → Prop} {c : Comparator K} (hc : TotalOn P c.compare) {dk : K} {dv : V}
    {n : Int} {ops : List (Op K V)} (hg : Guarded (empty c dk dv n) ops) (hP : ∀ o ∈ ops, Sane P o)
    {s : Heap K V} (hs : afterRun c dk dv n ops = some s) {rounds : Nat}
    (hr : (ideal (empty c dk dv n) ops).live.length ≤ rounds) :
    let a := ideal (empty c dk dv n) ops
    ∃ (l : List K) (s' : Heap K V), drain rounds s = .ok l s' ∧ l.Perm (a.live.map a.keyOf) ∧
      l.Pairwise (fun x y => a.cmp.compare x y ≤ 0) ∧ (step .getSize s').out = .ok (.int 0) := by
  obtain ⟨h1, h2⟩ := afterRun_spec hs hg
  obtain ⟨l, s', a', e1, e2, e3, e4, e5⟩ := drain_spec rounds s _ h1 (h2 P hc hP) hr
  refine ⟨l, s', e1, e4, e5, ?_⟩
  have := (step_spec e2 .getSize trivial).1
  rw [this]
  simp [e3]

/-! ## C52 -/

/-- C52: `resetKey` on a live entry changes only that entry's key, and `peek` is a minimum again. -/
theorem C52_resetKey {P : K → Prop} {c : Comparator K} (hc : TotalOn P c.compare) {dk : K} {dv : V}
    {n : Int} {ops : List (Op K V)} (hg : Guarded (empty c dk dv n) ops) (hP : ∀ o ∈ ops, Sane P o)
    {s : Heap K V} (hs : afterRun c dk dv n ops = some s) {e : Int} {k : K}
    (he : e ∈ (ideal (empty c dk dv n) ops).live) (hk : P k) :
    let a := ideal (empty c dk dv n) ops
    let s' := (step (.resetKey e k) s).state
    (step (.resetKey e k) s).out = .ok .unit ∧
    (step (.getKeyAt e) s').out = .ok (.key k) ∧
    (∀ x, x ≠ e → (step (.getKeyAt x) s').out = (step (.getKeyAt x) s).out) ∧
    (∀ x, (step (.getValueAt x) s').out = (step (.getValueAt x) s).out) ∧
    (step .getSize s').out = (step .getSize s).out ∧
    ∃ m ∈ a.live, (step .peek s').out = .ok (.int m) ∧
      ∀ x ∈ a.live, ¬ a.cmp.compare (if x = e then k else a.keyOf x) (if m = e then k else a.keyOf m) < 0 := by
  intro a s'
  obtain ⟨h1, h2⟩ := afterRun_spec hs hg
  have hg1 : Guard (.resetKey e k : Op K V) a := .inl he
  obtain ⟨r1, r2, r3⟩ := step_spec h1 (.resetKey e k) hg1
  have hr := live_in h1 he
  have haf : after (.resetKey e k : Op K V) a = { a with keyOf := upd a.keyOf e k } := by
    simp only [after]; rw [if_pos hr]
  have r3' := r3 P (h2 P hc hP) hk
  rw [haf] at r2 r3'
  refine ⟨?_, ?_, fun x hx => ?_, fun x => ?_, ?_, ?_⟩
  · simp only [Ok] at r1; rw [if_pos he] at r1; exact r1
  · have := (step_spec r2 (.getKeyAt e) trivial).1
    simp only [Ok] at this
    rw [this, if_pos hr]; simp [upd]
  · have t1 := (step_spec r2 (.getKeyAt x) trivial).1
    have t2 := (step_spec h1 (.getKeyAt x) trivial).1
    simp only [Ok] at t1 t2
    rw [t1, t2]; simp only [upd, if_neg hx]; rfl
  · have t1 := (step_spec r2 (.getValueAt x) trivial).1
    have t2 := (step_spec h1 (.getValueAt x) trivial).1
    simp only [Ok] at t1 t2
    rw [t1, t2]
  · have t1 := (step_spec r2 .getSize trivial).1
    have t2 := (step_spec h1 .getSize trivial).1
    simp only [Ok] at t1 t2
    rw [t1, t2]
  · have hne : a.live ≠ [] := fun hx => by
      have : e ∈ a.live := he
      rw [hx] at this; simp at this
    exact (peek_min r2 r3').2 hne

/-- C52: setting a comparator that orders the live keys, given as a different object, puts any heap in order
(even one whose previous comparator did not order its keys) and changes no key, value or size. -/
theorem C52_setComparator {c : Comparator K} {dk : K} {dv : V} {n : Int} {ops : List (Op K V)}
    (hg : Guarded (empty c dk dv n) ops) {s : Heap K V} (hs : afterRun c dk dv n ops = some s)
    {d : Comparator K} (hd : d.ref ≠ (ideal (empty c dk dv n) ops).cmp.ref)
    (ht : TotalOn (fun k => ∃ e ∈ (ideal (empty c dk dv n) ops).live, (ideal (empty c dk dv n) ops).keyOf e = k) d.compare) :
    let a := ideal (empty c dk dv n) ops
    let s' := (step (.setComparator (some d)) s).state
    (step (.setComparator (some d)) s).out = .ok .unit ∧
    (∀ x, (step (.getKeyAt x) s').out = (step (.getKeyAt x) s).out) ∧
    (∀ x, (step (.getValueAt x) s').out = (step (.getValueAt x) s).out) ∧
    (step .getSize s').out = (step .getSize s).out ∧
    (a.live ≠ [] → ∃ m ∈ a.live, (step .peek s').out = .ok (.int m) ∧
      ∀ x ∈ a.live, ¬ d.compare (a.keyOf x) (a.keyOf m) < 0) := by
  intro a s'
  obtain ⟨h1, -⟩ := afterRun_spec hs hg
  obtain ⟨s1, e1, e2, e3⟩ := setComparator_any h1 d hd ht (fun e he => ⟨e, he, rfl⟩)
  have hst : step (.setComparator (some d)) s = .ok .unit s1 := by
    simp only [step]; rw [JM.bind_ok e1]; rfl
  have hs' : s' = s1 := by show (step (.setComparator (some d)) s).state = s1; rw [hst]; rfl
  rw [hs', hst]
  refine ⟨rfl, fun x => ?_, fun x => ?_, ?_, fun hl => (peek_min e2 e3).2 hl⟩
  · have t1 := (step_spec e2 (.getKeyAt x) trivial).1
    have t2 := (step_spec h1 (.getKeyAt x) trivial).1
    simp only [Ok] at t1 t2
    rw [t1, t2]
  · have t1 := (step_spec e2 (.getValueAt x) trivial).1
    have t2 := (step_spec h1 (.getValueAt x) trivial).1
    simp only [Ok] at t1 t2
    rw [t1, t2]
  · have t1 := (step_spec e2 .getSize trivial).1
    have t2 := (step_spec h1 .getSize trivial).1
    simp only [Ok] at t1 t2
    rw [t1, t2]

/-! ## C53 -/

/-- C53, for entries out of range, entries that were handed out before, and empty heaps: `removeAt` rejects an
entry that is not live and changes nothing.  Missing: entries in range that were never handed out, on a
heap that is not empty; for those the property is false (`C53_removeAt_refuted`). -/
theorem C53_removeAt_partial {c : Comparator K} {dk : K} {dv : V} {n : Int} {ops : List (Op K V)}
    (hg : Guarded (empty c dk dv n) ops) {s : Heap K V} (hs : afterRun c dk dv n ops = some s) (e : Int) :
    let a := ideal (empty c dk dv n) ops
    (e < 0 ∨ a.cap ≤ e → step (.removeAt e) s = .err .rangeCheck s) ∧
    (0 ≤ e → e < a.cap → e ∉ a.live → (a.live = [] ∨ e < a.live.length + a.freed.length) →
      step (.removeAt e) s = .err .invalidEntry s) := by
  intro a
  obtain ⟨h1, -⟩ := afterRun_spec hs hg
  constructor
  · intro he
    simp only [step]
    exact JM.bind_err (removeAt_range h1 he)
  · intro h0 h2 h3 h4
    simp only [step]
    exact JM.bind_err (removeAt_dead h1 ⟨h0, h2⟩ h3 h4)

/-! ## C54 -/

/-- C54, what the two methods report, exactly.  `forEachEntry` presents the live entries below the size, in
increasing order; `isValidEntry(e)` is true for live entries and also for entries never handed out of
a heap that is not empty.  Missing: live entries at or above the size, which `forEachEntry` skips
(`C54_forEachEntry_refuted`); never-used entries, which `isValidEntry` accepts (`C54_isValidEntry_refuted`). -/
theorem C54_reports_partial {c : Comparator K} {dk : K} {dv : V} {n : Int} {ops : List (Op K V)}
    (hg : Guarded (empty c dk dv n) ops) {s : Heap K V} (hs : afterRun c dk dv n ops = some s) :
    let a := ideal (empty c dk dv n) ops
    (step .forEachEntry s).out =
      .ok (.ints (((List.range a.live.length).map Int.ofNat).filter fun e => decide (e ∈ a.live))) ∧
    ∀ e, 0 ≤ e → ((step (.isValidEntry e) s).out = .ok (.bool true) ↔
      e ∈ a.live ∨ (a.live ≠ [] ∧ (a.live.length + a.freed.length : Nat) ≤ e ∧ e < a.cap)) := by
  intro a
  obtain ⟨h1, -⟩ := afterRun_spec hs hg
  refine ⟨(step_spec h1 .forEachEntry trivial).1, fun e h0 => ?_⟩
  have := (step_spec h1 (.isValidEntry e) trivial).1
  simp only [Ok] at this
  rw [this, if_neg (by omega)]
  simp only [Except.ok.injEq, Out.bool.injEq, decide_eq_true_eq]
  exact Iff.rfl

/-- C54, when no entry is waiting for reuse: `forEachEntry` presents every live entry exactly once. -/
theorem C54_forEachEntry_no_holes_partial {c : Comparator K} {dk : K} {dv : V} {n : Int} {ops : List (Op K V)}
    (hg : Guarded (empty c dk dv n) ops) {s : Heap K V} (hs : afterRun c dk dv n ops = some s)
    (hf : (ideal (empty c dk dv n) ops).freed = []) :
    ∃ l, (step .forEachEntry s).out = .ok (.ints l) ∧ l.Nodup ∧
      ∀ e, e ∈ l ↔ e ∈ (ideal (empty c dk dv n) ops).live := by
  obtain ⟨h1, -⟩ := afterRun_spec hs hg
  refine ⟨_, (step_spec h1 .forEachEntry trivial).1, ?_, fun e => ?_⟩
  · exact (List.pairwise_map.mpr (List.nodup_range.imp fun h hx => h (Int.ofNat.inj hx))).filter _
  · rw [List.mem_filter, List.mem_map]
    simp only [List.mem_range, decide_eq_true_eq]
    refine ⟨fun h => h.2, fun h => ⟨?_, h⟩⟩
    have hr := h1.rng e (.inl h)
    unfold used at hr
    rw [hf] at hr
    simp only [List.length_nil] at hr
    exact ⟨e.toNat, by omega, by show ((e.toNat : Nat) : Int) = e; omega⟩

/-! ## C55 -/

/-- C55, `clear`: the heap is empty, and the entries below the old size have the default key and value.
Missing: entries at or above the old size, whose keys and values survive (`C55_clear_refuted`). -/
theorem C55_clear_partial {c : Comparator K} {dk : K} {dv : V} {n : Int} {ops : List (Op K V)}
    (hg : Guarded (empty c dk dv n) ops) {s : Heap K V} (hs : afterRun c dk dv n ops = some s) :
    let a := ideal (empty c dk dv n) ops
    let s' := (step .clear s).state
    (step .clear s).out = .ok .unit ∧ (step .getSize s').out = .ok (.int 0) ∧
    (step .peek s').out = .error .runtime ∧ (step .getCapacity s').out = (step .getCapacity s).out ∧
    ∀ e : Int, 0 ≤ e → e < a.live.length →
      (step (.getKeyAt e) s').out = .ok (.key a.dk) ∧ (step (.getValueAt e) s').out = .ok (.val a.dv) := by
  intro a s'
  obtain ⟨h1, -⟩ := afterRun_spec hs hg
  obtain ⟨r1, r2, -⟩ := step_spec h1 .clear trivial
  refine ⟨r1, (step_spec r2 .getSize trivial).1, (step_spec r2 .peek trivial).1.1 rfl, ?_, fun e h0 he => ?_⟩
  · have t1 := (step_spec r2 .getCapacity trivial).1
    have t2 := (step_spec h1 .getCapacity trivial).1
    simp only [Ok] at t1 t2
    rw [t1, t2]; rfl
  · have hcap : e < a.cap := by
      have q1 := h1.size_le
      have q2 := h1.used_le
      have q3 := h1.cap
      have q4 := h1.sz
      show e < (ideal (empty c dk dv n) ops).cap
      have : e < ((ideal (empty c dk dv n) ops).live.length : Int) := he
      omega
    have hc0 : 0 ≤ e ∧ e < (after (.clear : Op K V) a).cap := ⟨h0, hcap⟩
    have t1 := (step_spec r2 (.getKeyAt e) trivial).1
    have t2 := (step_spec r2 (.getValueAt e) trivial).1
    simp only [Ok] at t1 t2
    rw [if_pos hc0] at t1 t2
    rw [t1, t2]
    simp only [after]
    rw [if_pos ⟨h0, he⟩, if_pos ⟨h0, he⟩]
    exact ⟨rfl, rfl⟩

/-- C55, when no removed entry was waiting for reuse and no value was written to an entry that was never
handed out: after `clear()`, the entries of insertions without a value have the default value. -/
theorem C55_insert_after_clear_partial {c : Comparator K} {dk : K} {dv : V} {n : Int} {ops : List (Op K V)}
    {ks : List K} {k : K}
    (hg : Guarded (empty c dk dv n) (ops ++ .clear :: (ks.map Op.insert ++ [.insert k])))
    (hdef : ∀ e : Int, (ideal (empty c dk dv n) ops).live.length ≤ e →
      (ideal (empty c dk dv n) ops).valOf e = (ideal (empty c dk dv n) ops).dv)
    {s : Heap K V} (hs : afterRun c dk dv n (ops ++ .clear :: ks.map Op.insert) = some s) {e : Int}
    (he : (step (.insert k) s).out = .ok (.int e)) :
    (step (.getValueAt e) (step (.insert k) s).state).out =
      .ok (.val (ideal (empty c dk dv n) ops).dv) := by
  have happ : ops ++ .clear :: (ks.map Op.insert ++ [.insert k]) =
      (ops ++ .clear :: ks.map Op.insert) ++ [.insert k] := by simp
  rw [happ, guarded_append] at hg
  obtain ⟨h1, -⟩ := afterRun_spec hs hg.1
  obtain ⟨r1, r2, -⟩ := step_spec h1 (.insert k) hg.2.1
  simp only [Ok] at r1
  have hnf : ¬ ((ideal (empty c dk dv n) (ops ++ .clear :: ks.map Op.insert)).Full ∧
      (ideal (empty c dk dv n) (ops ++ .clear :: ks.map Op.insert)).Stuck) := by
    intro hx; rw [if_pos hx, he] at r1; simp at r1
  rw [if_neg hnf, he] at r1
  simp only [Except.ok.injEq, Out.int.injEq] at r1
  have hv : ∀ (ks : List K) (a : Abs K V) (d : V), (∀ x, 0 ≤ x → a.valOf x = d) →
      ∀ x, 0 ≤ x → (ideal a (ks.map Op.insert)).valOf x = d := by
    intro ks
    induction ks with
    | nil => exact fun a d h => h
    | cons k ks ih =>
      intro a d h
      show ∀ x, 0 ≤ x → (ideal (after (.insert k) a) (ks.map Op.insert)).valOf x = d
      refine ih _ d fun x hx => ?_
      simp only [after]; split <;> exact h x hx
  have hlive : e ∈ (after (.insert k) (ideal (empty c dk dv n) (ops ++ .clear :: ks.map Op.insert))).live := by
    simp only [after]; rw [if_neg hnf, r1]; exact List.mem_cons_self
  rw [(out_of_call r2 hlive).2.1]
  have hr := live_in r2 hlive
  congr 2
  have e1 : (after (.insert k) (ideal (empty c dk dv n) (ops ++ .clear :: ks.map Op.insert))).valOf e =
      (ideal (empty c dk dv n) (ops ++ .clear :: ks.map Op.insert)).valOf e := by
    simp only [after]; rw [if_neg hnf]; rfl
  rw [e1, ideal_append]
  show (ideal (after .clear (ideal (empty c dk dv n) ops)) (ks.map Op.insert)).valOf e = _
  refine hv ks _ _ (fun x hx => ?_) e hr.1
  simp only [after]
  split
  · rfl
  · exact hdef x (by omega)

/-! ## C71 -/

/-- C71, outside the two exceptions below: an insertion fails only with a `ResizeException`, only when no cell
is free, and only for the capacities 0, 2^29 or at least 2^30; then the heap is unchanged.  Otherwise the
capacity is unchanged when a cell is free and doubles (up to 2^29) when none is.  Missing: a full heap
whose capacity lies strictly between 2^29 and 2^30, where the property is false (`C71_shrink_refuted`), and
more than 2^30 entries. -/
theorem C71_insert_capacity_partial {c : Comparator K} {dk : K} {dv : V} {n : Int} {ops : List (Op K V)}
    (hg : Guarded (empty c dk dv n) ops) {s : Heap K V} (hs : afterRun c dk dv n ops = some s) (k : K)
    (hk : Guard (.insert k : Op K V) (ideal (empty c dk dv n) ops)) :
    let a := ideal (empty c dk dv n) ops
    (a.Full ∧ a.Stuck → step (.insert k) s = .err .resize s) ∧
    (¬ (a.Full ∧ a.Stuck) → (∃ e, (step (.insert k) s).out = .ok (.int e)) ∧
      (step .getCapacity (step (.insert k) s).state).out =
        .ok (.int (if a.Full then min (2 * a.cap) (2 ^ 29) else a.cap)) ∧
      (step .getSize (step (.insert k) s).state).out = .ok (.int (a.live.length + 1))) := by
  intro a
  obtain ⟨h1, -⟩ := afterRun_spec hs hg
  obtain ⟨r1, r2, -⟩ := step_spec h1 (.insert k) hk
  constructor
  · intro hx
    simp only [step]
    exact JM.bind_err (insert_stuck h1 k hx.1 hx.2)
  · intro hx
    simp only [Ok] at r1
    rw [if_neg hx] at r1
    have haf : after (.insert k : Op K V) a = a.insert k := by simp only [after]; rw [if_neg hx]
    rw [haf] at r2
    refine ⟨⟨_, r1⟩, ?_, ?_⟩
    · have := (step_spec r2 .getCapacity trivial).1
      simp only [Ok] at this
      rw [this]; rfl
    · have := (step_spec r2 .getSize trivial).1
      simp only [Ok] at this
      rw [this]
      show _ = Except.ok (Out.int ((a.live.length : Int) + 1))
      simp [Abs.insert]

/-- Filling a heap up to its capacity. -/
theorem Heap.fill_up {c : Comparator K} {dk : K} {dv : V} {n : Int} (k : K) : ∀ (m : Nat), (m : Int) ≤ n →
    n < 2 ^ 30 →
    Guarded (empty c dk dv n) (List.replicate m (.insert k)) ∧
    (ideal (empty c dk dv n) (List.replicate m (.insert k))).live.length = m ∧
    (ideal (empty c dk dv n) (List.replicate m (.insert k))).freed = [] ∧
    (ideal (empty c dk dv n) (List.replicate m (.insert k))).cap = n
  | 0, _, _ => ⟨trivial, rfl, rfl, rfl⟩
  | m + 1, hm, hn => by
    obtain ⟨i1, i2, i3, i4⟩ := Heap.fill_up (c := c) (dk := dk) (dv := dv) (n := n) k m (by omega) hn
    rw [List.replicate_succ', guarded_append, ideal_append]
    have hnf : ¬ (ideal (empty c dk dv n) (List.replicate m (.insert k))).Full := by
      rintro ⟨_, hx⟩
      rw [i2, i4] at hx; omega
    have haf : ideal (ideal (empty c dk dv n) (List.replicate m (.insert k))) [.insert k] =
        (ideal (empty c dk dv n) (List.replicate m (.insert k))).insert k := by
      show after (.insert k) _ = _
      simp only [after]; rw [if_neg (fun hx => hnf hx.1)]
    rw [haf]
    refine ⟨⟨i1, ⟨by rw [i2]; omega, fun hx => hnf hx.1⟩, trivial⟩, ?_, ?_, ?_⟩
    · simp [Abs.insert, i2]
    · simp [Abs.insert, i3]
    · simp only [Abs.insert, Abs.newCap, if_neg hnf, i4]

/-- C71 is false for a heap created with a capacity strictly between 2^29 and 2^30: when it is full, the next
insertion cuts the arrays down to 2^29 cells, throws an `IndexOutOfBoundsException`, and the keys of
live entries can no longer be read although the size is unchanged. -/
theorem C71_shrink_refuted (c : Comparator K) (dk k : K) (dv : V) {n : Int} (h1 : 2 ^ 29 < n) (h2 : n < 2 ^ 30) :
    ∃ s, afterRun c dk dv n (List.replicate n.toNat (.insert k)) = some s ∧
      (step (.insert k) s).out = .error .indexOutOfBounds ∧
      (step .getSize (step (.insert k) s).state).out = .ok (.int n) ∧
      (step .getCapacity (step (.insert k) s).state).out = .ok (.int (2 ^ 29)) ∧
      (∃ v, (step (.getKeyAt (n - 1)) s).out = .ok (.key v)) ∧
      (step (.getKeyAt (n - 1)) (step (.insert k) s).state).out = .error .indexOutOfBounds := by
  obtain ⟨s, hs⟩ := (C49_new c dk dv n (List.replicate n.toNat (.insert k))).2 (by omega)
  obtain ⟨g1, g2, g3, g4⟩ := Heap.fill_up (c := c) (dk := dk) (dv := dv) (n := n) k n.toNat (by omega) h2
  obtain ⟨hi, -⟩ := afterRun_spec hs g1
  have hsz := hi.sz
  have hcap := hi.cap
  have hfc := hi.fc
  have hkl := hi.good.kl
  rw [g3] at hfc
  rw [g2] at hsz
  rw [g4] at hcap
  have hst : ¬ (ideal (empty c dk dv n) (List.replicate n.toNat (.insert k))).Stuck := by
    unfold Abs.Stuck; rw [g4]; omega
  have hcalc := calc_ok s _ hi hst
  rw [g4] at hcalc
  have hfull : (ideal (empty c dk dv n) (List.replicate n.toNat (.insert k))).Full :=
    ⟨g3, by rw [g2, g4]; omega⟩
  have hmin : min (2 * n) (2 ^ 29) = 2 ^ 29 := by omega
  rw [hmin] at hcalc
  have halloc : allocateEntry k s = .err .indexOutOfBounds (grown s (2 ^ 29)) := by
    unfold allocateEntry
    rw [JM.bind_ok (JM.get_apply _)]
    rw [if_neg (by simp only [List.length_nil] at hfc; omega)]
    rw [JM.when_pos (by omega)]
    have hgr : (do
        let newCapacity ← Heap.calculateNewCapacity
        growHeap newCapacity
        growKeys newCapacity
        growValues newCapacity : JM (Heap K V) Unit) s = .ok () (grown s (2 ^ 29)) := by
      rw [JM.bind_ok hcalc]; exact grow_spec s (by omega)
    rw [JM.bind_ok hgr, JM.bind_ok (JM.pure_apply _ _)]
    refine JM.bind_err (wr_oob _ _ ?_)
    show ¬ (0 ≤ s.size ∧ s.size < (((2 ^ 29 : Int).toNat : Nat) : Int))
    omega
  have hins : step (.insert k) s = .err .indexOutOfBounds (grown s (2 ^ 29)) := by
    simp only [step]
    refine JM.bind_err ?_
    unfold Heap.insert
    rw [JM.bind_ok (JM.get_apply _)]
    exact JM.bind_err halloc
  refine ⟨s, hs, ?_⟩
  rw [hins]
  refine ⟨rfl, ?_, ?_, ?_, ?_⟩
  · show Except.ok (Out.int s.size) = _
    rw [hsz]; congr 2; omega
  · rfl
  · have := (step_spec hi (.getKeyAt (n - 1)) trivial).1
    simp only [Ok] at this
    rw [if_pos (by rw [g4]; omega)] at this
    exact ⟨_, this⟩
  · simp only [step, getKeyAt]
    show ((_ >>= _ : JM (Heap K V) (Out K V)) (grown s (2 ^ 29))).out = _
    rw [JM.bind_err (rd_oob _ ?_)]
    · rfl
    · show ¬ (0 ≤ n - 1 ∧ n - 1 < (((2 ^ 29 : Int).toNat : Nat) : Int))
      omega

/-- C71 is false for a heap created with capacity 0: it never accepts an insertion. -/
theorem C71_capacity_zero_refuted (c : Comparator K) (dk k : K) (dv : V) (v : V) :
    ∃ s, afterRun c dk dv 0 ([] : List (Op K V)) = some s ∧ step (.insert k) s = .err .resize s ∧
      step (.insertKV k v) s = .err .resize s := by
  obtain ⟨s, hs⟩ := (C49_new c dk dv 0 ([] : List (Op K V))).2 (by omega)
  have h1 : HeapProof.Inv s (empty c dk dv 0) := (afterRun_spec hs trivial).1
  have hf : (empty c dk dv 0 : Abs K V).Full := ⟨rfl, by simp [empty]⟩
  have hst : (empty c dk dv 0 : Abs K V).Stuck := .inl rfl
  refine ⟨s, hs, ?_, ?_⟩
  · simp only [step]
    exact JM.bind_err (insert_stuck h1 k hf hst)
  · simp only [step, insertKV]
    exact JM.bind_err (JM.bind_err (insert_stuck h1 k hf hst))

end

/-! ## Counterexamples and concrete cases -/

namespace Heap

/-- Insertions with growth, a reset, a removal and a comparator change. -/
def demo : List (Op Int Int) :=
  [.insertKV 5 50, .insertKV 3 30, .insertKV 8 80, .insert 1, .resetKey 1 9, .removeAt 0, .insertKV 4 40,
    .setComparator (some desc), .insertKV 7 70]

theorem demo_guarded : Guarded (empty asc (0 : Int) (0 : Int) 2) demo := by
  have h1 : Guarded (empty asc (0 : Int) (0 : Int) 2) (demo.take 7) := by
    simp only [demo, List.take, Guarded, Guard]; decide +kernel
  rw [← List.take_append_drop 7 demo, guarded_append]
  refine ⟨h1, fun hx => absurd hx (by decide +kernel), ?_, trivial⟩
  simp only [Guard]; decide +kernel

theorem demo_sane : ∀ o ∈ demo, Sane (fun _ => True) o := by
  intro o ho
  simp only [demo, List.mem_cons, List.not_mem_nil, or_false] at ho
  rcases ho with rfl | rfl | rfl | rfl | rfl | rfl | rfl | rfl | rfl <;> simp [Sane]
  exact desc_total

end Heap

/-- The hypotheses of C49, C50, C51 and C52 hold of a history with growth, a removal, a reset and a change of
comparator, and the results are the expected ones. -/
example : ∃ s, afterRun asc (0 : Int) (0 : Int) 2 Heap.demo = some s ∧
    (ideal (empty asc (0 : Int) (0 : Int) 2) Heap.demo).live = [4, 0, 3, 2, 1] ∧
    (step .peek s).out = .ok (.int 1) ∧
    (drain 5 s).out = .ok [9, 8, 7, 4, 1] ∧
    (step (.getValueAt 0) s).out = .ok (.val 40) := by
  exact ⟨_, rfl, by decide +kernel⟩

example : TotalOn (fun _ => True) Heap.asc.compare ∧ Guarded (empty asc (0 : Int) (0 : Int) 2) Heap.demo ∧
    (∀ o ∈ Heap.demo, Sane (fun _ => True) o) := ⟨asc_total, demo_guarded, demo_sane⟩

/-- C50's hypotheses: the entry 2 of `insertKV 8 80` in `demo` is not touched afterwards. -/
example : Heap.demo = [.insertKV 5 50, .insertKV 3 30] ++ .insertKV 8 80 ::
      [.insert 1, .resetKey 1 9, .removeAt 0, .insertKV 4 40, .setComparator (some desc), .insertKV 7 70] ∧
    ∀ o ∈ ([.insert 1, .resetKey 1 9, .removeAt 0, .insertKV 4 40, .setComparator (some desc), .insertKV 7 70] :
      List (Op Int Int)), ¬ Touches 2 o := by
  refine ⟨rfl, ?_⟩
  intro o ho
  simp only [List.mem_cons, List.not_mem_nil, or_false] at ho
  rcases ho with rfl | rfl | rfl | rfl | rfl | rfl <;> simp [Touches]

/-- C53 is false: removing entry 3, which was never handed out, of a heap with two entries and capacity 4
succeeds, and the heap has lost an entry: the live entry 1, whose key was the minimum, is gone. -/
theorem C53_removeAt_refuted :
    let ops : List (Op Int Int) := [.insert 5, .insert 3]
    ∃ s, afterRun asc (0 : Int) (0 : Int) 4 ops = some s ∧
      3 ∉ (ideal (empty asc (0 : Int) (0 : Int) 4) ops).live ∧
      (step .peek s).out = .ok (.int 1) ∧
      (step (.removeAt 3) s).out = .ok .unit ∧
      (step .getSize (step (.removeAt 3) s).state).out = .ok (.int 1) ∧
      (step .peek (step (.removeAt 3) s).state).out = .ok (.int 0) ∧
      (step (.containsKey 3) s).out = .ok (.bool true) ∧
      (step (.containsKey 3) (step (.removeAt 3) s).state).out = .ok (.bool false) := by
  exact ⟨_, rfl, by decide +kernel⟩

/-- C53 is false of every reachable heap that is not empty and every entry of it that was never handed out: `removeAt`
returns normally, and the heap has lost the entry `peek` gave: it is one smaller, neither `peek` nor a search ever
gives that entry again, and all other entries are still found under their keys. -/
theorem C53_unused_refuted [BEq K] [BEq V] {c : Comparator K} {dk : K} {dv : V} {n : Int} {ops : List (Op K V)}
    (hg : Guarded (empty c dk dv n) ops) {s : Heap K V} (hs : afterRun c dk dv n ops = some s) (e : Int) :
    let a := ideal (empty c dk dv n) ops
    a.live ≠ [] → ((a.live.length + a.freed.length : Nat) : Int) ≤ e → e < a.cap →
    ∃ r ∈ a.live, ∃ s', (step .peek s).out = .ok (.int r) ∧ step (.removeAt e) s = .ok .unit s' ∧
      (step .getSize s').out = .ok (.int (a.live.length - 1)) ∧
      (∀ x, (step .peek s').out = .ok (.int x) → x ∈ a.live.erase r) ∧
      ∀ k, (∃ x ∈ a.live.erase r, a.cmp.compare k (a.keyOf x) = 0 ∧ (step (.getFirstEntry k) s').out = .ok (.int x)) ∨
        ((∀ x ∈ a.live.erase r, a.cmp.compare k (a.keyOf x) ≠ 0) ∧ (step (.getFirstEntry k) s').out = .ok (.int (-1))) := by
  intro a hl he hc
  have h : Inv s a := (afterRun_spec hs hg).1
  clear_value a
  obtain ⟨s', e1, L⟩ := removeAt_unused h (e := e) (by unfold used; omega) hc hl
  obtain ⟨p1, p2⟩ := (peek_spec h).2 hl
  have hsz := h.sz
  have herase : ∀ x, x ∈ a.live.erase (s.tree.get 0) ↔ ∃ p, 0 ≤ p ∧ p < s'.size ∧ s'.tree.get p = x := by
    intro x
    rw [h.nd.mem_erase_iff, ← L.mem x]
    exact And.comm
  refine ⟨s.tree.get 0, p1, s', ?_, ?_, ?_, ?_, ?_⟩
  · simp only [step]; rw [JM.bind_ok p2]; rfl
  · simp only [step]; rw [JM.bind_ok e1]; rfl
  · show Except.ok (Out.int s'.size) = _
    rw [L.sz, hsz]
  · intro x hx
    simp only [step, Heap.peek] at hx
    rw [JM.bind_apply, JM.bind_ok (JM.get_apply _)] at hx
    by_cases h0 : s'.size = 0
    · rw [if_pos h0] at hx
      cases hx
    · have hml := L.good.ml
      have := L.sz
      have := List.length_pos_iff.2 hl
      have hpos : 0 < s'.size := by omega
      rw [if_neg h0, rd_ok _ (by omega)] at hx
      cases hx
      exact (herase _).2 ⟨0, by omega, hpos, rfl⟩
  · intro k
    have hpos := List.length_pos_iff.2 hl
    have hz' := L.sz
    simp only [step, Heap.getFirstEntry]
    rw [JM.bind_apply, JM.bind_ok (JM.get_apply _)]
    rcases firstLoop_any L.good k s'.size.toNat 0 (by omega) (by omega) with ⟨p, q0, q1, q2, q3⟩ | ⟨q1, q2⟩
    · left
      have hx := (herase _).2 ⟨p, q0, q1, rfl⟩
      refine ⟨s'.tree.get p, hx, ?_, by rw [q3]; rfl⟩
      rw [← L.keys _ (List.mem_of_mem_erase hx), ← L.cmp]; exact q2
    · right
      refine ⟨fun x hx => ?_, by rw [q2]; rfl⟩
      obtain ⟨p, r0, r1, r2⟩ := (herase _).1 hx
      rw [← L.keys _ (List.mem_of_mem_erase hx), ← L.cmp, ← r2]
      exact q1 p r0 r1

/-- C54 is false for `forEachEntry`: after removing entry 0 of two, entry 1 is live and not presented. -/
theorem C54_forEachEntry_refuted :
    let ops : List (Op Int Int) := [.insert 5, .insert 3, .removeAt 0]
    ∃ s, afterRun asc (0 : Int) (0 : Int) 4 ops = some s ∧
      (ideal (empty asc (0 : Int) (0 : Int) 4) ops).live = [1] ∧
      (step .forEachEntry s).out = .ok (.ints []) := by
  exact ⟨_, rfl, by decide +kernel⟩

/-- C54 is false for `isValidEntry`: entry 3 was never handed out, and a negative entry throws. -/
theorem C54_isValidEntry_refuted :
    let ops : List (Op Int Int) := [.insert 5]
    ∃ s, afterRun asc (0 : Int) (0 : Int) 4 ops = some s ∧
      (ideal (empty asc (0 : Int) (0 : Int) 4) ops).live = [0] ∧
      (step (.isValidEntry 3) s).out = .ok (.bool true) ∧
      (step (.isValidEntry (-1)) s).out = .error .indexOutOfBounds := by
  exact ⟨_, rfl, by decide +kernel⟩

/-- C55 is false: entry 1 keeps the value 20 over `clear()`, and the second insertion without a value gets it. -/
theorem C55_clear_refuted :
    let ops : List (Op Int Int) := [.insertKV 1 10, .insertKV 2 20, .removeAt 0, .clear, .insert 7]
    ∃ s, afterRun asc (0 : Int) (0 : Int) 4 ops = some s ∧
      (step (.insert 8) s).out = .ok (.int 1) ∧
      (step (.getValueAt 1) (step (.insert 8) s).state).out = .ok (.val 20) := by
  exact ⟨_, rfl, by decide +kernel⟩

/-- C55's hypotheses are met, with values written before the `clear`. -/
example : let ops : List (Op Int Int) := [.insertKV 1 10, .insertKV 2 20]
    Guarded (empty asc (0 : Int) (0 : Int) 4) (ops ++ .clear :: ([7].map Op.insert ++ [.insert 8])) ∧
    ∀ e : Int, (ideal (empty asc (0 : Int) (0 : Int) 4) ops).live.length ≤ e →
      (ideal (empty asc (0 : Int) (0 : Int) 4) ops).valOf e = (ideal (empty asc (0 : Int) (0 : Int) 4) ops).dv := by
  refine ⟨by simp only [List.cons_append, List.nil_append, List.map, Guarded, Guard]; decide +kernel, ?_⟩
  intro e he
  have he' : (2 : Int) ≤ e := he
  show (if e = 1 then (20 : Int) else if e = 0 then 10 else 0) = 0
  rw [if_neg (by omega), if_neg (by omega)]

/-- C71: a heap of capacity 2 grows to 4 on the third insertion. -/
example : let ops : List (Op Int Int) := [.insert 1, .insert 2]
    ∃ s, afterRun asc (0 : Int) (0 : Int) 2 ops = some s ∧
      (ideal (empty asc (0 : Int) (0 : Int) 2) ops).Full ∧
      ¬ (ideal (empty asc (0 : Int) (0 : Int) 2) ops).Stuck ∧
      (step .getCapacity (step (.insert 3) s).state).out = .ok (.int 4) := by
  exact ⟨_, rfl, by decide +kernel⟩

end Verif
