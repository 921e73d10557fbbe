import Verif.Link.Iterator
import Verif.Props.IteratorEnd
/-! The iterator of `BaseHash.java` for the set: the generated code does what it does for the map, the value array
apart. -/
set_option linter.unusedSectionVars false
namespace Verif.Link.SetL
open Verif Verif.Gen Index IndexSpec Iterating
variable {K V : Type} [Inhabited K] [Inhabited V] {α β : Type}

/-- The same with other values. -/
def withI (s : Iterating K V) (v : Arr V) : Iterating K V := { s with map := withV s.map v }

theorem withI_it (s : Iterating K V) (v : Arr V) : (withI s v).it = s.it := rfl
theorem withI_heads (s : Iterating K V) (v : Arr V) : (withI s v).map.heads = s.map.heads := rfl
theorem withI_mod (s : Iterating K V) (v : Arr V) :
    (withI s v).map.modificationCount = s.map.modificationCount := rfl
theorem withI_free (s : Iterating K V) (v : Arr V) : (withI s v).map.freeList = s.map.freeList := rfl
theorem withI_size (s : Iterating K V) (v : Arr V) : (withI s v).map.size = s.map.size := rfl

/-- From objects that differ only in their value arrays, `g` (the set) returns or throws what `m` (the map) does, and
the objects again differ only there. -/
def SI (m g : JM (Iterating K V) α) (s : Iterating K V) (v : Arr V) : Prop :=
  s.map.nexts.len = s.map.values.len →
  match m s with
  | .ok a t => t.map.nexts.len = t.map.values.len ∧ ∃ w, g (withI s v) = .ok a (withI t w)
  | .err e t => ∃ w, g (withI s v) = .err e (withI t w)

namespace SI
variable {m g : JM (Iterating K V) α} {s : Iterating K V} {v : Arr V} {f h : α → JM (Iterating K V) β}

theorem pure {a : α} : SI (Pure.pure a) (Pure.pure a) s v := fun hp => ⟨hp, v, rfl⟩
theorem throw {e : Err} : SI (JM.throw e : JM (Iterating K V) α) (JM.throw e) s v := fun _ => ⟨v, rfl⟩
theorem bind (h1 : SI m g s v) (h2 : ∀ a t w, m s = .ok a t → SI (f a) (h a) t w) : SI (m >>= f) (g >>= h) s v := by
  intro hp
  have h1 := h1 hp
  rw [JM.bind_apply]
  cases hm : m s with
  | err e t =>
    rw [hm] at h1
    obtain ⟨w, hw⟩ := h1
    exact ⟨w, by rw [JM.bind_err hw]⟩
  | ok a t =>
    rw [hm] at h1
    obtain ⟨hp', w, hw⟩ := h1
    have h2 := h2 a t w hm hp'
    rw [JM.bind_ok hw]
    exact h2
theorem get {f h : Iterating K V → JM (Iterating K V) β} (h2 : SI (f s) (h (withI s v)) s v) :
    SI (MonadState.get >>= f) (MonadState.get >>= h) s v := h2
theorem rd {arr : Index K V → Arr α} {i : Int} (ha : arr (withV s.map v) = arr s.map)
    (h2 : ∀ a, SI (f a) (h a) s v) :
    SI (Verif.rd (fun s : Iterating K V => arr s.map) i >>= f) (Verif.rd (fun s => arr s.map) i >>= h) s v := by
  intro hp
  rw [JM.bind_apply, JM.bind_apply]
  have ha' : arr (withI s v).map = arr s.map := ha
  simp only [Verif.rd, ha']
  by_cases hb : 0 ≤ i ∧ i < (arr s.map).len
  · simp only [if_pos hb]; exact h2 _ hp
  · simp only [if_neg hb]; exact ⟨v, rfl⟩
theorem rdHeads {i : Int} {f h : Int → JM (Iterating K V) β} (h2 : ∀ a, SI (f a) (h a) s v) :
    SI (Verif.rd (fun s : Iterating K V => s.map.heads) i >>= f) (Verif.rd (fun s => s.map.heads) i >>= h) s v :=
  rd (arr := Index.heads) rfl h2
theorem rdNexts {i : Int} {f h : Int → JM (Iterating K V) β} (h2 : ∀ a, SI (f a) (h a) s v) :
    SI (Verif.rd (fun s : Iterating K V => s.map.nexts) i >>= f) (Verif.rd (fun s => s.map.nexts) i >>= h) s v :=
  rd (arr := Index.nexts) rfl h2
theorem wrHeads {i x : Int} {f h : Unit → JM (Iterating K V) β}
    (h2 : SI (f ()) (h ()) { s with map.heads := s.map.heads.set i x } v) :
    SI (Verif.wr (fun s : Iterating K V => s.map.heads) (fun s a => { s with map.heads := a }) i x >>= f)
      (Verif.wr (fun s : Iterating K V => s.map.heads) (fun s a => { s with map.heads := a }) i x >>= h) s v := by
  intro hp
  rw [JM.bind_apply, JM.bind_apply]
  have ha' : (withI s v).map.heads = s.map.heads := rfl
  simp only [Verif.wr, ha']
  by_cases hb : 0 ≤ i ∧ i < s.map.heads.len
  · simp only [if_pos hb]; exact h2 hp
  · simp only [if_neg hb]; exact ⟨v, rfl⟩
theorem wrNexts {i x : Int} {f h : Unit → JM (Iterating K V) β}
    (h2 : 0 ≤ i ∧ i < s.map.nexts.len → SI (f ()) (h ()) { s with map.nexts := s.map.nexts.set i x } v) :
    SI (Verif.wr (fun s : Iterating K V => s.map.nexts) (fun s a => { s with map.nexts := a }) i x >>= f)
      (Verif.wr (fun s : Iterating K V => s.map.nexts) (fun s a => { s with map.nexts := a }) i x >>= h) s v := by
  intro hp
  rw [JM.bind_apply, JM.bind_apply]
  have ha' : (withI s v).map.nexts = s.map.nexts := rfl
  simp only [Verif.wr, ha']
  by_cases hb : 0 ≤ i ∧ i < s.map.nexts.len
  · simp only [if_pos hb]; exact h2 hb (by simpa using hp)
  · simp only [if_neg hb]; exact ⟨v, rfl⟩
theorem modify {u u' : Iterating K V → Iterating K V} {f h : PUnit → JM (Iterating K V) β}
    (hu : u' (withI s v) = withI (u s) v) (hn : (u s).map.nexts = s.map.nexts) (hv : (u s).map.values = s.map.values)
    (h2 : SI (f ⟨⟩) (h ⟨⟩) (u s) v) :
    SI ((_root_.modify u : JM (Iterating K V) PUnit) >>= f) ((_root_.modify u' : JM (Iterating K V) PUnit) >>= h) s v := by
  intro hp
  rw [JM.bind_ok (JM.modify_apply u s), JM.bind_ok (JM.modify_apply u' _), hu]
  exact h2 (by rw [hn, hv]; exact hp)
theorem ite {c d : Prop} {_ : Decidable c} {_ : Decidable d} {m n g k : JM (Iterating K V) α} (hcd : c ↔ d)
    (h1 : SI m g s v) (h2 : SI n k s v) : SI (if c then m else n) (if d then g else k) s v := by
  by_cases hc : c
  · rw [if_pos hc, if_pos (hcd.1 hc)]; exact h1
  · rw [if_neg hc, if_neg (fun h => hc (hcd.2 h))]; exact h2
end SI

variable {s : Iterating K V} {v : Arr V}

macro "ii" : tactic => `(tactic| first
  | with_reducible exact SI.pure
  | with_reducible exact SI.throw
  | ((with_reducible refine SI.get ?_); try simp only [withI_it, withI_heads, withI_mod, withI_free, withI_size])
  | with_reducible refine SI.rdHeads fun _ => ?_
  | with_reducible refine SI.rdNexts fun _ => ?_
  | ((with_reducible refine SI.modify ?_ ?_ ?_ ?_) <;> [rfl; rfl; rfl; skip])
  | refine SI.ite Iff.rfl ?_ ?_
  | refine SI.bind (SI.ite Iff.rfl ?_ ?_) fun _ _ _ _ => ?_
  | exact SI.pure)

theorem nextHeadLoop_SI : ∀ (n : Nat) (s : Iterating K V) (v : Arr V),
    SI (EntryIterator.KeyValueIndexedMap.nextHead_loop1 n) (EntryIterator.KeyIndexedSet.nextHead_loop1 n) s v
  | 0, _, _ => .throw
  | n + 1, s, v => by
    unfold EntryIterator.KeyValueIndexedMap.nextHead_loop1 EntryIterator.KeyIndexedSet.nextHead_loop1
    repeat (first | exact nextHeadLoop_SI n _ _ | ii)

theorem nextHead_SI (fuel : Nat) (s : Iterating K V) (v : Arr V) :
    SI (EntryIterator.KeyValueIndexedMap.nextHead fuel) (EntryIterator.KeyIndexedSet.nextHead fuel) s v := by
  unfold EntryIterator.KeyValueIndexedMap.nextHead EntryIterator.KeyIndexedSet.nextHead
  ii; ii; ii
  refine .bind (nextHeadLoop_SI _ _ _) fun _ _ _ _ => ?_
  repeat ii

theorem initialise_SI (fuel : Nat) (s : Iterating K V) (v : Arr V) :
    SI (EntryIterator.KeyValueIndexedMap.initialise fuel) (EntryIterator.KeyIndexedSet.initialise fuel) s v := by
  unfold EntryIterator.KeyValueIndexedMap.initialise EntryIterator.KeyIndexedSet.initialise
  refine .bind (nextHead_SI _ _ _) fun _ _ _ _ => ?_
  repeat ii

theorem next_SI (fuel : Nat) (s : Iterating K V) (v : Arr V) :
    SI (EntryIterator.KeyValueIndexedMap.next fuel) (EntryIterator.KeyIndexedSet.next fuel) s v := by
  unfold EntryIterator.KeyValueIndexedMap.next EntryIterator.KeyIndexedSet.next
  repeat (first | (refine .bind (nextHead_SI _ _ _) fun _ _ _ _ => ?_) |
    (refine .bind (initialise_SI _ _ _) fun _ _ _ _ => ?_) | ii)

theorem removeValue_SI {e : Int} {f h : Unit → JM (Iterating K V) β} {s : Iterating K V} {v : Arr V}
    (he : 0 ≤ e ∧ e < s.map.nexts.len)
    (h2 : ∀ w, SI (f ()) (h ()) { s with map.values := w } v) :
    SI (EntryIterator.KeyValueIndexedMap.removeValue e >>= f) (EntryIterator.KeyIndexedSet.removeValue e >>= h) s v := by
  intro hp
  have hr : EntryIterator.KeyValueIndexedMap.removeValue e s =
      .ok () { s with map.values := s.map.values.set e default } := by
    unfold EntryIterator.KeyValueIndexedMap.removeValue
    rw [bind_unit]
    unfold wr
    simp only
    rw [if_pos (by rw [← hp]; exact he)]
  have hr2 : EntryIterator.KeyIndexedSet.removeValue e (withI s v) = .ok () (withI s v) := rfl
  rw [JM.bind_ok hr, JM.bind_ok hr2]
  exact h2 _ (by simpa using hp)

theorem remove_SI (fuel : Nat) (s : Iterating K V) (v : Arr V) :
    SI (EntryIterator.KeyValueIndexedMap.remove0 fuel) (EntryIterator.KeyIndexedSet.remove0 fuel) s v := by
  unfold EntryIterator.KeyValueIndexedMap.remove0 EntryIterator.KeyIndexedSet.remove0
  ii
  refine SI.bind (SI.ite Iff.rfl (by ii) (by ii)) fun _ _ _ _ => ?_
  ii
  refine SI.bind (SI.ite Iff.rfl (by ii) (by ii)) fun _ _ _ _ => ?_
  ii
  refine SI.bind (SI.ite Iff.rfl (.bind (initialise_SI _ _ _) fun _ _ _ _ => .pure) (by ii)) fun _ _ _ _ => ?_
  ii; ii; ii; ii
  refine SI.bind (SI.ite Iff.rfl (.wrHeads .pure) (.wrNexts fun _ => .pure)) fun _ _ _ _ => ?_
  ii
  refine .wrNexts fun hb => ?_
  ii; ii; ii; ii; ii
  refine removeValue_SI ?_ fun w => ?_
  · simpa using hb
  repeat ii

theorem reset_SI (s : Iterating K V) (v : Arr V) :
    SI EntryIterator.KeyValueIndexedMap.reset EntryIterator.KeyIndexedSet.reset s v := by
  unfold EntryIterator.KeyValueIndexedMap.reset EntryIterator.KeyIndexedSet.reset
  repeat ii

theorem iterator0_SI (s : Iterating K V) (v : Arr V) :
    SI EntryIterator.KeyValueIndexedMap.iterator0 EntryIterator.KeyIndexedSet.iterator0 s v :=
  fun hp => ⟨hp, v, rfl⟩

theorem currentEntry_SI (s : Iterating K V) (v : Arr V) :
    SI EntryIterator.KeyValueIndexedMap.currentEntry EntryIterator.KeyIndexedSet.currentEntry s v :=
  fun hp => ⟨hp, v, rfl⟩

/-! ## a program that uses a set and an iterator -/

/-- A call on the set or on the iterator. -/
inductive SetUse (K : Type)
  | call (o : SetOp K) | next | remove | iterator

/-- The same call for a map. -/
def SetUse.op : SetUse K → UseOp K V
  | .call o => .call o.op
  | .next => .next
  | .remove => .remove
  | .iterator => .iterator

/-- One call of the generated code. -/
def useStep (fuel : Nat) : SetUse K → JM (Iterating K V) (Out K V)
  | .call o => onMap (step fuel o)
  | .next => do
    let more ← EntryIterator.KeyIndexedSet.next fuel
    if more then do return .int (← EntryIterator.KeyIndexedSet.currentEntry) else return .bool false
  | .remove => do EntryIterator.KeyIndexedSet.remove0 fuel; return .unit
  | .iterator => do let _ ← EntryIterator.KeyIndexedSet.iterator0; return .unit

/-- The arguments are Java `int`s. -/
def UseInt : SetUse K → Prop
  | .call o => IntArg o
  | _ => True

theorem SI.res {m g : JM (Iterating K V) α} (h : SI m g s v) (hp : s.map.nexts.len = s.map.values.len) :
    (g (withI s v)).out = (m s).out ∧ ∃ w, (g (withI s v)).state = withI (m s).state w := by
  have h := h hp
  cases hm : m s with
  | ok a t => rw [hm] at h; obtain ⟨_, w, hw⟩ := h; rw [hw]; exact ⟨rfl, w, rfl⟩
  | err e t => rw [hm] at h; obtain ⟨w, hw⟩ := h; rw [hw]; exact ⟨rfl, w, rfl⟩

/-- One call of the set, from that of the map. -/
theorem useStep_of {tight : Prop} {s : Iterating K V} {a : Abs K V} {F : List Int} (h : Index.Inv tight s.map a F)
    (fuel : Nat) (o : SetUse K) (v : Arr V) :
    (useStep fuel o (withI s v)).out = (Map.useStep fuel o.op s).out ∧
      ∃ w, (useStep fuel o (withI s v)).state = withI (Map.useStep fuel o.op s).state w := by
  have hp : s.map.nexts.len = s.map.values.len := by
    have h1 := h.nlen; have h2 := h.vlen
    omega
  cases o with
  | call o =>
    obtain ⟨e1, w, e2⟩ := step_of h fuel o v
    obtain ⟨r1, r2⟩ := onMap_res (step fuel o) (withI s v)
    obtain ⟨q1, q2⟩ := onMap_res (Map.step fuel o.op) s
    refine ⟨?_, w, ?_⟩
    · show (onMap (step fuel o) (withI s v)).out = (onMap (Map.step fuel o.op) s).out
      rw [r1, q1]; exact e1
    · show (onMap (step fuel o) (withI s v)).state = withI (onMap (Map.step fuel o.op) s).state w
      rw [r2, q2]
      show (⟨(step fuel o (withV s.map v)).state, s.it⟩ : Iterating K V) = _
      rw [e2]; rfl
  | next =>
    refine SI.res (m := Map.useStep fuel .next) (g := useStep fuel .next) (.bind (next_SI _ _ _) fun a t w _ => ?_) hp
    refine .ite Iff.rfl (.bind (currentEntry_SI _ _) fun _ _ _ _ => .pure) .pure
  | remove =>
    exact SI.res (m := Map.useStep fuel .remove) (g := useStep fuel .remove)
      (.bind (remove_SI _ _ _) fun _ _ _ _ => .pure) hp
  | iterator =>
    exact SI.res (m := Map.useStep fuel .iterator) (g := useStep fuel .iterator)
      (.bind (iterator0_SI _ _) fun _ _ _ _ => .pure) hp

theorem UseInt.op {o : SetUse K} (h : UseInt o) : Map.UseInt (o.op : UseOp K V) := by
  cases o with
  | call o => exact IntArg.op h
  | _ => trivial

theorem use_legal {tight : Prop} (fuel : Nat) (hf : 2 ^ 31 ≤ fuel) : ∀ (ops : List (SetUse K)) (n : Int)
    (s : Iterating K V) (v : Arr V) (u : Use K V), UInv tight n s u → Map.Bx s.map → (∀ o ∈ ops, UseInt o) →
    0 ≤ n → n + ops.length ≤ 1073741824 →
    UseLegalBy SetUse.op (useStep fuel) (.call .forEachEntry) u (withI s v) ops
  | [], _, _, _, _, _, _, _, _, _ => trivial
  | o :: ops, n, s, v, u, h, hb, hi, h0, hn => by
    intro hg
    simp only [List.length_cons] at hn
    have he := Map.useStep_eq fuel hf (by omega) h0 h hb o.op (hi o (by simp)).op hg
    obtain ⟨h1, h2⟩ := use_step (by omega) s u o.op h h0 hg
    obtain ⟨⟨F, hF⟩, -⟩ := h
    obtain ⟨g1, w, g2⟩ := useStep_of hF fuel o v
    have g3 : listed (useStep fuel (.call .forEachEntry) (withI s v)).out = entriesOf s.map := by
      rw [(useStep_of hF fuel (.call .forEachEntry) v).1]
      exact Map.listed_eq fuel hf hF hb
    rw [g3, g1, g2, he]
    exact ⟨h1, use_legal fuel hf ops (n + 1) _ _ _ h2 (Map.useStep_bx o.op s hb) (fun o ho => hi o (by simp [ho]))
      (by omega) (by omega)⟩

end Verif.Link.SetL

namespace Verif
open Index IndexSpec Iterating Link.SetL
variable {K V : Type} [Inhabited K] [Inhabited V]

/-- C94 for the code generated from BaseHash.java (`IteratorImpl`), BaseKeyIndex.ftl and KeyIndexedSet.ftl: on every
set that a program using the generated class can hold, every program of at most 2^30 calls on the set and on an
iterator of it has the results of the ideal cursor. -/
theorem C94_generated_set_iterator_use (fuel : Nat) (hf : 2 ^ 31 ≤ fuel) {s : Index K V} {a : Abs K V}
    (h : Link.SetL.Made fuel s a) (it : Iter) (ops : List (SetUse K)) (hi : ∀ o ∈ ops, Link.SetL.UseInt o)
    (hlen : ops.length ≤ 2 ^ 30) :
    UseLegalBy SetUse.op (Link.SetL.useStep fuel) (.call .forEachEntry) ⟨⟨.start, [], a⟩, .void⟩ ⟨s, it⟩ ops := by
  obtain ⟨s', v, rfl, hm⟩ := h.inv hf
  obtain ⟨hb, hr⟩ := hm.inv hf
  obtain ⟨F, hF⟩ := reach_inv hr
  exact Link.SetL.use_legal fuel hf ops 0 ⟨s', it⟩ v _ ⟨⟨F, hF⟩, trivial⟩ hb hi (by omega) (by
    have e : (2 : Nat) ^ 30 = 1073741824 := by decide
    omega)

/-- C104 for the generated map (partial as `C104_stays_exhausted_partial`): once `next()` has returned false, it
returns false, and the map is not changed. -/
theorem C104_generated_partial (fuel : Nat) (hf : 2 ^ 31 ≤ fuel) {s : Index K V} {a : Abs K V}
    (h : Link.Map.Made fuel s a) (it : Iter) (its : List ItOp) (n : Nat) (hlen : its.length + n ≤ 2 ^ 30) :
    ∃ t, Gen.EntryIterator.KeyValueIndexedMap.iterator0 ⟨s, it⟩ = .ok (some ()) t ∧
      let u := (runM (Link.Map.itStep fuel) t its).2
      ((Link.Map.itStep fuel .next u).out = .ok none →
        (runM (Link.Map.itStep fuel) u (List.replicate n .next)).1 = List.replicate n (.ok none) ∧
        (runM (Link.Map.itStep fuel) u (List.replicate n .next)).2.map = u.map) := by
  have e : (2 : Nat) ^ 30 = 1073741824 := by decide
  obtain ⟨hb, hr⟩ := h.inv hf
  obtain ⟨F, hF⟩ := reach_inv hr
  obtain ⟨it', h1, h2⟩ := cinv_reset hF it
  obtain ⟨t, g1, g2⟩ := C104_stays_exhausted_partial hr it its n hlen
  rw [h1] at g1
  injection g1 with _ g1
  subst g1
  obtain ⟨_, h4⟩ := cursor_run its 0 _ _ h2 (by omega) (by omega)
  refine ⟨⟨s, it'⟩, by rw [Link.Map.iterator_eq.2, JM.bind_ok h1]; rfl, ?_⟩
  intro u
  have hu : u = (runM itStep (⟨s, it'⟩ : Iterating K V) its).2 := by
    show (runM (Link.Map.itStep fuel) _ its).2 = _
    rw [Link.Map.itRun_eq fuel hf _ 0 _ _ h2 (by omega) (by omega)]
  rw [← hu] at h4 g2
  rw [Link.Map.itStep_eq fuel hf (by omega) (by omega) h4,
    Link.Map.itRun_eq fuel hf (List.replicate n .next) _ _ _ h4 (by omega) (by
      simp only [List.length_replicate]; omega)]
  exact g2

/- Non-vacuity: the generated classes are built and used with an iterator. -/
example : (match Gen.KeyValueIndexedMap.init2 (fun k : Int => BitVec.ofInt 32 k) (fun a b => a == b) 4 (3, 4) rawIndex with
    | .ok _ s => (runM (Link.Map.useStep 40) ⟨s, exampleIter⟩ [.call (.put 1 5), .call (.put 9 6), .call (.put 17 7),
        .iterator, .next, .call (.put 9 60), .call (.add 17), .remove, .next, .call (.get 9), .call (.put 2 8), .next,
        .remove, .call .size, .iterator, .next]).1
    | .err e _ => [.error e]) =
    [.ok (.int 0), .ok (.int 1), .ok (.int 2), .ok .unit, .ok (.int 2), .ok (.int 1), .ok (.int 2),
      .ok .unit, .ok (.int 1), .ok (.val 60), .ok (.int 2), .error .concurrentModification,
      .error .concurrentModification, .ok (.int 3), .ok .unit, .ok (.int 1)] := by decide +kernel
example : (match Gen.KeyIndexedSet.init2 (fun k : Int => BitVec.ofInt 32 k) (fun a b => a == b) 4 (3, 4) rawIndex with
    | .ok _ s => (runM (Link.SetL.useStep 40) (⟨s, exampleIter⟩ : Iterating Int Int) [.call (.add 1), .call (.add 9), .call (.add 17),
        .iterator, .next, .remove, .remove, .next, .next, .next, .call .size, .call (.add 2), .next, .iterator, .next]).1
    | .err e _ => [.error e]) =
    [.ok (.int 0), .ok (.int 1), .ok (.int 2), .ok .unit, .ok (.int 2), .ok .unit, .error .illegalState, .ok (.int 1),
      .ok (.int 0), .ok (.bool false), .ok (.int 2), .ok (.int 2), .error .concurrentModification, .ok .unit,
      .ok (.int 1)] := by decide +kernel

end Verif
