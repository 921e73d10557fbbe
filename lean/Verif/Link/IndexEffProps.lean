import Verif.Link.IndexEff
import Verif.Link.IndexProps
import Verif.Props.IndexEff
/-! # C106, C107 for the generated indexed map

`Link.MapEff.step eff fuel o` calls the method generated from the Java text, with hash and equality functions whose
calls have the effect `eff` (Gen/KeyValueIndexedMapEff.lean). -/
set_option linter.unusedSectionVars false
namespace Verif.Link.MapEff
open Verif.Index Verif.IndexSpec Verif.Gen Verif.IndexEff Verif.IndexEffSpec Verif.IndexEffProof
variable {σ K V : Type} [Inhabited K] [Inhabited V]

/-! ## the vocabulary of Spec/IndexEff.lean, for generated calls -/

/-- Every call of the functions returns or throws. -/
structure Ends (eff : Effects σ K) : Prop where
  hash : ∀ f k u, (eff.hash f k u).out ≠ .error .diverge
  eq : ∀ f a b u, (eff.eq f a b u).out ≠ .error .diverge

/-- The keys of the collection, as the generated `forEach` hands them out. -/
def keysOf (fuel : Nat) (s : Index K V) : List K :=
  match Map.res fuel .forEach s with
  | .ok (.keys l) => l
  | _ => []

/-- The keys in `k`'s bucket. -/
def bucket (fuel : Nat) (s : Index K V) (k : K) : List K :=
  (keysOf fuel s).filter fun k' => headOf s.hashFunc s.heads.len k' = headOf s.hashFunc s.heads.len k

/-- A search for `k`: one hash, then comparisons with the keys of its bucket until one is equal. -/
def search (fuel : Nat) (s : Index K V) (k : K) : List (Ask K) :=
  .hash k :: (upto (s.equalFunc k) (bucket fuel s k)).map (.eq k)

/-- The questions a call asks before it changes anything. -/
def asked (fuel : Nat) (s : Index K V) : Op K V → List (Ask K)
  | .add k | .put k _ | .lookupEntry k | .containsKey k | .get k | .getOrDefault k _ | .remove k => search fuel s k
  | .removeAtAndReserve e => search fuel s (s.keys.get e)
  | _ => []

/-- The call adds a new key and the collection grows. -/
def Grows (fuel : Nat) (s : Index K V) (k : K) (r : Except Err (Out K V)) : Prop :=
  Map.res fuel (.containsKey k) s = .ok (.bool false) ∧ ∃ e, r = .ok (.int e) ∧ s.capThreshold ≤ e

open Classical in
/-- The questions a call asks while the collection grows. -/
noncomputable def askedGrowing (fuel : Nat) (s : Index K V) : Op K V → List (Ask K)
  | .add k => if Grows fuel s k (Map.res fuel (.add k) s) then (keysOf fuel s).map .hash ++ [.hash k] else []
  | .put k v => if Grows fuel s k (Map.res fuel (.put k v) s) then (keysOf fuel s).map .hash ++ [.hash k] else []
  | _ => []

/-- All keys of the collection were hashed without an exception. -/
def AllHashed (eff : Effects σ K) (fuel : Nat) (s : Index K V) : Prop := ∀ k ∈ keysOf fuel s, Hashed eff s.hashFunc k

/-! ## it is the vocabulary of the model -/

variable {fuel : Nat} {s : Index K V} {a : Abs K V} {eff : Effects σ K}

theorem keysOf_gen (hf : 2 ^ 31 ≤ fuel) (h : Map.Made fuel s a) : keysOf fuel s = IndexEffSpec.keysOf s := by
  unfold keysOf IndexEffSpec.keysOf Map.res
  rw [h.eq hf .forEach trivial trivial]
  rfl

theorem bucket_gen (hf : 2 ^ 31 ≤ fuel) (h : Map.Made fuel s a) (k : K) : bucket fuel s k = IndexEffSpec.bucket s k := by
  unfold bucket IndexEffSpec.bucket; rw [keysOf_gen hf h]

theorem search_gen (hf : 2 ^ 31 ≤ fuel) (h : Map.Made fuel s a) (k : K) : search fuel s k = IndexEffSpec.search s k := by
  unfold search IndexEffSpec.search; rw [bucket_gen hf h]

theorem asked_gen (hf : 2 ^ 31 ≤ fuel) (h : Map.Made fuel s a) (o : Op K V) : asked fuel s o = IndexEffSpec.asked s o := by
  cases o <;> first | rfl | exact search_gen hf h _

theorem grows_gen (hf : 2 ^ 31 ≤ fuel) (h : Map.Made fuel s a) (k : K) (r : Except Err (Out K V)) :
    Grows fuel s k r = IndexEffSpec.Grows s k r := by
  unfold Grows IndexEffSpec.Grows Map.res
  rw [h.eq hf (.containsKey k) trivial trivial]

theorem askedGrowing_gen (hf : 2 ^ 31 ≤ fuel) (h : Map.Made fuel s a) (o : Op K V) (hg : Guard o a) :
    askedGrowing fuel s o = IndexEffSpec.askedGrowing s o := by
  cases o with
  | add k =>
    have e : Grows fuel s k (Map.res fuel (.add k) s) = IndexEffSpec.Grows s k (Index.step (.add k) s).out := by
      rw [grows_gen hf h, Map.res, h.eq hf (.add k) trivial hg]
    simp only [askedGrowing, IndexEffSpec.askedGrowing, keysOf_gen hf h]
    congr 1
  | put k v =>
    have e : Grows fuel s k (Map.res fuel (.put k v) s) = IndexEffSpec.Grows s k (Index.step (.put k v) s).out := by
      rw [grows_gen hf h, Map.res, h.eq hf (.put k v) trivial hg]
    simp only [askedGrowing, IndexEffSpec.askedGrowing, keysOf_gen hf h]
    congr 1
  | _ => rfl

theorem askAll_ends (hD : Ends eff) (f : K → BitVec 32) (q : K → K → Bool) : ∀ (l : List (Ask K)) (u u' : σ),
    askAll eff f q l u ≠ .err .diverge u'
  | [], _, _ => fun h => by cases h
  | .hash k :: l, u, u' => by
    rw [askAll_hash]
    have := hD.hash f k u
    cases e : eff.hash f k u with
    | ok r u1 => exact askAll_ends hD f q l u1 u'
    | err x u1 => rw [e] at this; rintro ⟨⟩; exact this rfl
  | .eq a b :: l, u, u' => by
    rw [askAll_eq]
    have := hD.eq q a b u
    cases e : eff.eq q a b u with
    | ok r u1 => exact askAll_ends hD f q l u1 u'
    | err x u1 => rw [e] at this; rintro ⟨⟩; exact this rfl

theorem step_ne_diverge (hf : 2 ^ 31 ≤ fuel) (h : Map.Made fuel s a) (hE : Honest eff) (hD : Ends eff) (o : Op K V)
    (hg : Guard o a) (u : σ) : (IndexEff.step eff o ⟨s, u⟩).out ≠ .error .diverge := by
  obtain ⟨-, c2, c3⟩ := C106_questions (h.reach hf) hg hE u
  cases h1 : askAll eff s.hashFunc s.equalFunc (IndexEffSpec.asked s o ++ IndexEffSpec.askedGrowing s o) u with
  | err e u' =>
    rw [(c2 e u' h1).1]
    rintro ⟨⟩
    exact askAll_ends hD _ _ _ _ _ h1
  | ok x u' =>
    rw [(c3 u' h1).1]
    obtain ⟨F, hF⟩ := reach_inv (h.reach hf)
    exact Map.step_ne_diverge hF o hg

/-- One call, as an equation. -/
theorem step_eq (hf : 2 ^ 31 ≤ fuel) (h : Map.Made fuel s a) (hE : Honest eff) (hD : Ends eff) (o : Op K V)
    (hi : Map.IntArg o) (hg : Guard o a) (u : σ) : step eff fuel o ⟨s, u⟩ = IndexEff.step eff o ⟨s, u⟩ := by
  obtain ⟨hb, hr⟩ := h.inv hf
  obtain ⟨F, hF⟩ := reach_inv hr
  exact (step_sim fuel hf hF hb o hi).toEq (step_ne_diverge hf h hE hD o hg u)

theorem allHashed_gen (hf : 2 ^ 31 ≤ fuel) (h : Map.Made fuel s a) :
    AllHashed eff fuel s ↔ IndexEffSpec.AllHashed eff s := by
  unfold AllHashed IndexEffSpec.AllHashed; rw [keysOf_gen hf h]

theorem ends_counting : Ends (counting (K := K)) where
  hash _ _ _ h := by cases h
  eq _ _ _ _ h := by cases h

end Verif.Link.MapEff

namespace Verif
open Index IndexSpec IndexEff IndexEffSpec IndexEffProof
variable {σ K V : Type} [Inhabited K] [Inhabited V] {fuel : Nat} {s : Index K V} {a : Abs K V}

/-- C106 for the generated class. -/
theorem C106_generated_questions (hf : 2 ^ 31 ≤ fuel) (h : Link.Map.Made fuel s a) {o : Op K V}
    (hi : Link.Map.IntArg o) (hg : Guard o a) {eff : Effects σ K} (hE : Honest eff) (hD : Link.MapEff.Ends eff) (u : σ) :
    (∀ e u', askAll eff s.hashFunc s.equalFunc (Link.MapEff.asked fuel s o) u = .err e u' →
      Link.MapEff.step eff fuel o ⟨s, u⟩ = .err e ⟨s, u'⟩) ∧
    (∀ e u', askAll eff s.hashFunc s.equalFunc (Link.MapEff.asked fuel s o ++ Link.MapEff.askedGrowing fuel s o) u =
        .err e u' →
      (Link.MapEff.step eff fuel o ⟨s, u⟩).out = .error e ∧ (Link.MapEff.step eff fuel o ⟨s, u⟩).state.ext = u') ∧
    (∀ u', askAll eff s.hashFunc s.equalFunc (Link.MapEff.asked fuel s o ++ Link.MapEff.askedGrowing fuel s o) u =
        .ok () u' →
      (Link.MapEff.step eff fuel o ⟨s, u⟩).out = (Link.Map.step fuel o s).out ∧
      (Link.MapEff.step eff fuel o ⟨s, u⟩).state = ⟨(Link.Map.step fuel o s).state, u'⟩) := by
  rw [Link.MapEff.asked_gen hf h, Link.MapEff.askedGrowing_gen hf h o hg, Link.MapEff.step_eq hf h hE hD o hi hg,
    h.eq hf o hi hg]
  exact C106_questions (h.reach hf) hg hE u

open Classical in
/-- C106 for the generated class, counted. -/
theorem C106_generated_how_often (hf : 2 ^ 31 ≤ fuel) (h : Link.Map.Made fuel s a) {o : Op K V}
    (hi : Link.Map.IntArg o) (hg : Guard o a) (i j : Nat) : ∃ hs cs,
      (Link.MapEff.step counting fuel o ⟨s, (i, j)⟩).out = (Link.Map.step fuel o s).out ∧
      (Link.MapEff.step counting fuel o ⟨s, (i, j)⟩).state = ⟨(Link.Map.step fuel o s).state, (i + hs, j + cs)⟩ ∧
      hs = hashesPerCall o + (if ∃ k, (o = .add k ∨ ∃ v, o = .put k v) ∧
        Link.MapEff.Grows fuel s k (Link.Map.step fuel o s).out then a.rows.length + 1 else 0) ∧
      cs ≤ a.rows.length ∧ (hashesPerCall o = 0 → cs = 0) ∧
      (∀ k, (o = .add k ∨ (∃ v, o = .put k v) ∨ o = .lookupEntry k ∨ o = .containsKey k ∨ o = .get k ∨
        (∃ d, o = .getOrDefault k d) ∨ o = .remove k) → cs ≤ (Link.MapEff.bucket fuel s k).length) := by
  simp only [Link.MapEff.step_eq hf h honest_counting Link.MapEff.ends_counting o hi hg, h.eq hf o hi hg,
    Link.MapEff.grows_gen hf h, Link.MapEff.bucket_gen hf h]
  exact C106_how_often (h.reach hf) hg i j

/-- C107 for the generated class, one call. -/
theorem C107_generated_steady_partial (hf : 2 ^ 31 ≤ fuel) (h : Link.Map.Made fuel s a) {o : Op K V}
    (hi : Link.Map.IntArg o) (hg : Guard o a) {eff : Effects σ K} (hE : Honest eff) (hD : Link.MapEff.Ends eff)
    (hS : Steady eff) (hK : Link.MapEff.AllHashed eff fuel s) (u : σ) :
    (∃ e u', askAll eff s.hashFunc s.equalFunc (Link.MapEff.asked fuel s o) u = .err e u' ∧
      Link.MapEff.step eff fuel o ⟨s, u⟩ = .err e ⟨s, u'⟩) ∨
    ((Link.MapEff.step eff fuel o ⟨s, u⟩).out = (Link.Map.step fuel o s).out ∧
      (Link.MapEff.step eff fuel o ⟨s, u⟩).state.index = (Link.Map.step fuel o s).state ∧
      Link.MapEff.AllHashed eff fuel (Link.Map.step fuel o s).state) := by
  rw [Link.MapEff.allHashed_gen hf h] at hK
  rw [Link.MapEff.allHashed_gen hf (.call o h hi hg), Link.MapEff.asked_gen hf h,
    Link.MapEff.step_eq hf h hE hD o hi hg, h.eq hf o hi hg]
  exact C107_steady_partial (h.reach hf) hg hE hS hK u

/-- C107 for the generated class, a history. -/
theorem C107_generated_history_partial (hf : 2 ^ 31 ≤ fuel) {eff : Effects σ K} (hE : Honest eff)
    (hD : Link.MapEff.Ends eff) (hS : Steady eff) :
    ∀ (ops : List (Op K V)) {s : Index K V} {a : Abs K V}, Link.Map.Made fuel s a → Link.MapEff.AllHashed eff fuel s →
      (∀ l, l.Sublist ops → Link.Map.Guarded fuel a s l) → ∀ u, ∃ mask : List Bool, mask.length = ops.length ∧
      (runM (Link.MapEff.step eff fuel) ⟨s, u⟩ ops).2.index = (runM (Link.Map.step fuel) s (pick mask ops)).2 ∧
      pick mask (runM (Link.MapEff.step eff fuel) ⟨s, u⟩ ops).1 = (runM (Link.Map.step fuel) s (pick mask ops)).1 ∧
      ∀ r ∈ pick (mask.map (!·)) (runM (Link.MapEff.step eff fuel) ⟨s, u⟩ ops).1, ∃ e, r = .error e := by
  intro ops
  induction ops with
  | nil => exact fun _ _ _ u => ⟨[], rfl, rfl, rfl, fun r hr => by cases hr⟩
  | cons o os ih =>
    intro s a h hK hg u
    obtain ⟨hio, hgo, -⟩ := hg [o] (by simp)
    rcases C107_generated_steady_partial hf h hio hgo hE hD hS hK u with ⟨e, u', -, he⟩ | ⟨h1, h2, h3⟩
    · obtain ⟨mask, m1, m2, m3, m4⟩ := ih h hK (fun l hl => hg l (hl.cons o)) u'
      refine ⟨false :: mask, by simp [m1], ?_, ?_, ?_⟩
      · simp only [runM, he, Res.state]; exact m2
      · simp only [runM, he, Res.state]; exact m3
      · simp only [runM, he, Res.state, Res.out, List.map_cons, Bool.not_false, pick]
        intro r hr
        rcases List.mem_cons.1 hr with rfl | hr
        · exact ⟨e, rfl⟩
        · exact m4 r hr
    · have ht : (Link.MapEff.step eff fuel o ⟨s, u⟩).state =
          ⟨(Link.Map.step fuel o s).state, (Link.MapEff.step eff fuel o ⟨s, u⟩).state.ext⟩ := by
        rw [← h2]
      obtain ⟨mask, m1, m2, m3, m4⟩ := ih (.call o h hio hgo) h3 (fun l hl => (hg (o :: l) (hl.cons_cons o)).2.2)
        (Link.MapEff.step eff fuel o ⟨s, u⟩).state.ext
      rw [← ht] at m2 m3 m4
      refine ⟨true :: mask, by simp [m1], ?_, ?_, ?_⟩
      · simp only [runM, pick]; exact m2
      · simp only [runM, pick]; rw [m3, h1]
      · simp only [runM, List.map_cons, Bool.not_true, pick]; exact m4

namespace IndexEffProof

/-- The generated class from its constructor, with 4 buckets and load factor 3/4. -/
def runGen {σ : Type} (eff : Effects σ Int) (u : σ) (ops : List (Op Int Int)) :
    Option (List (Except Err (Out Int Int)) × σ) :=
  match Gen.KeyValueIndexedMap.init2 (fun k : Int => BitVec.ofInt 32 k) (fun a b => a == b) 4 (3, 4) rawIndex with
  | .ok _ s => some ((runM (Link.MapEff.step eff 40) ⟨s, u⟩ ops).1, (runM (Link.MapEff.step eff 40) ⟨s, u⟩ ops).2.ext)
  | .err _ _ => none

end IndexEffProof

/-- C107 fails for the generated class where it fails for the model. -/
theorem C107_generated_refuted :
    runGen (lapsing 5) 0 [.put 1 10, .put 2 20, .put 3 30, .put 4 40, .containsKey 1, .containsKey 2, .containsKey 3,
      .size, .forEach] =
    some ([.ok (.int 0), .ok (.int 1), .ok (.int 2), .error .illegalState, .ok (.bool true), .ok (.bool false),
      .ok (.bool false), .ok (.int 3), .ok (.keys [1])], 9) := by decide +kernel

/-- The run that Props/IndexEff.lean counts, by the generated class. -/
example : runGen counting (0, 0) [.put 1 10, .put 2 20, .put 3 30, .put 4 40, .containsKey 2, .containsKey 12,
      .remove 5, .size] =
    some ([.ok (.int 0), .ok (.int 1), .ok (.int 2), .ok (.int 3), .ok (.bool true), .ok (.bool false),
      .ok (.int (-1)), .ok (.int 4)], (11, 2)) := by decide +kernel

/-- `picky` meets the hypothesis `Ends` too (Props/IndexEff.lean shows the others), and the generated class does with
it what Props/IndexEff.lean shows. -/
example : Link.MapEff.Ends picky ∧
    runGen picky 0 [.put 1 10, .put 7 70, .put 5 50, .put 2 20, .containsKey 7, .get 1, .get 5, .get 5, .size,
      .forEach] =
    some ([.ok (.int 0), .error .nullPointer, .ok (.int 1), .ok (.int 2), .error .nullPointer,
      .error .illegalState, .ok (.val 50), .ok (.val 50), .ok (.int 3), .ok (.keys [5, 1, 2])], 5) := by
  refine ⟨⟨fun f k u => ?_, fun f a b u => ?_⟩, by decide +kernel⟩ <;> simp only [picky] <;> split <;> simp [Res.out]

end Verif
