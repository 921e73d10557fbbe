import Verif.Link.SetEff
/-! # C106, C107 for the generated indexed set -/
set_option linter.unusedSectionVars false
namespace Verif.Link.SetEff
open Verif.Index Verif.IndexSpec Verif.Gen Verif.IndexEff Verif.IndexEffSpec Verif.IndexEffProof Verif.Link.SetL
variable {σ K V : Type} [Inhabited K] [Inhabited V]

/-- The two sets are the same: all fields are equal but `values`, which the class `KeyIndexedSet` does not have. -/
def Same (s t : Index K V) : Prop := ∃ w, t = { s with values := w }

theorem Same.withV (s : Index K V) (v w : Arr V) : Same (withV s v) (SetL.withV s w) := ⟨w, rfl⟩

end Verif.Link.SetEff

namespace Verif
open Index IndexSpec IndexEff IndexEffSpec IndexEffProof Link.SetL
variable {σ K V : Type} [Inhabited K] [Inhabited V] {fuel : Nat} {s : Index K V} {a : Abs K V}

/-- C106 for the generated set. -/
theorem C106_generated_set_questions (hf : 2 ^ 31 ≤ fuel) (h : Link.SetL.Made fuel s a) {o : SetOp K}
    (hi : Link.SetL.IntArg o) (hg : Guard o.op a) {eff : Effects σ K} (hE : Honest eff) (hD : Link.MapEff.Ends eff)
    (u : σ) :
    (∀ e u', askAll eff s.hashFunc s.equalFunc (Link.SetEff.asked fuel s o) u = .err e u' →
      ∃ t, Link.SetEff.step eff fuel o ⟨s, u⟩ = .err e ⟨t, u'⟩ ∧ Link.SetEff.Same s t) ∧
    (∀ e u', askAll eff s.hashFunc s.equalFunc (Link.SetEff.asked fuel s o ++ Link.SetEff.askedGrowing fuel s o) u =
        .err e u' →
      (Link.SetEff.step eff fuel o ⟨s, u⟩).out = .error e ∧ (Link.SetEff.step eff fuel o ⟨s, u⟩).state.ext = u') ∧
    (∀ u', askAll eff s.hashFunc s.equalFunc (Link.SetEff.asked fuel s o ++ Link.SetEff.askedGrowing fuel s o) u =
        .ok () u' →
      (Link.SetEff.step eff fuel o ⟨s, u⟩).out = (Link.SetL.step fuel o s).out ∧
      (Link.SetEff.step eff fuel o ⟨s, u⟩).state.ext = u' ∧
      Link.SetEff.Same (Link.SetL.step fuel o s).state (Link.SetEff.step eff fuel o ⟨s, u⟩).state.index) := by
  obtain ⟨s, v, rfl, hm⟩ := h.inv hf
  obtain ⟨c1, c2, c3⟩ := C106_generated_questions hf hm hi.op hg hE hD u
  rw [Link.SetEff.asked_gen hf hm, Link.SetEff.askedGrowing_gen hf hm]
  obtain ⟨g1, g2, w, g3⟩ := Link.SetEff.step_gen (eff := eff) (v := v) (u := u) hf hm o
  refine ⟨fun e u' he => ?_, fun e u' he => ?_, fun u' he => ?_⟩
  · have := c1 e u' he
    rw [this] at g1 g2 g3
    cases hr : Link.SetEff.step eff fuel o (⟨withV s v, u⟩ : IndexObs σ K V) with
    | ok x t => rw [hr] at g1; cases g1
    | err x t =>
      rw [hr] at g1 g2 g3
      cases g1
      obtain ⟨t, ut⟩ := t
      cases g2
      cases g3
      exact ⟨_, rfl, .withV s v w⟩
  · rw [g1, g2]; exact c2 e u' he
  · obtain ⟨d1, d2⟩ := c3 u' he
    obtain ⟨x, hx⟩ := Link.SetEff.state_gen (v := v) hf hm o
    rw [g1, g2, g3, d1, d2, Link.SetEff.out_gen hf hm, hx]
    exact ⟨rfl, rfl, .withV _ _ _⟩

open Classical in
/-- C106 for the generated set, counted. -/
theorem C106_generated_set_how_often (hf : 2 ^ 31 ≤ fuel) (h : Link.SetL.Made fuel s a) {o : SetOp K}
    (hi : Link.SetL.IntArg o) (hg : Guard o.op a) (i j : Nat) : ∃ hs cs,
      (Link.SetEff.step counting fuel o ⟨s, (i, j)⟩).out = (Link.SetL.step fuel o s).out ∧
      (Link.SetEff.step counting fuel o ⟨s, (i, j)⟩).state.ext = (i + hs, j + cs) ∧
      Link.SetEff.Same (Link.SetL.step fuel o s).state (Link.SetEff.step counting fuel o ⟨s, (i, j)⟩).state.index ∧
      hs = hashesPerCall (V := V) o.op + (if ∃ k, o = .add k ∧
        Link.SetEff.Grows fuel s k (Link.SetL.step fuel o s).out then a.rows.length + 1 else 0) ∧
      cs ≤ a.rows.length ∧ (hashesPerCall (V := V) o.op = 0 → cs = 0) ∧
      (∀ k, (o = .add k ∨ o = .lookupEntry k ∨ o = .containsKey k ∨ o = .remove k) →
        cs ≤ (Link.SetEff.bucket fuel s k).length) := by
  obtain ⟨s, v, rfl, hm⟩ := h.inv hf
  obtain ⟨hs, cs, c1, c2, c3, c4, c5, c6⟩ := C106_generated_how_often hf hm hi.op hg i j
  obtain ⟨g1, g2, w, g3⟩ := Link.SetEff.step_gen (eff := counting) (v := v) (u := (i, j)) hf hm o
  obtain ⟨x, hx⟩ := Link.SetEff.state_gen (v := v) hf hm o
  refine ⟨hs, cs, ?_, ?_, ?_, ?_, c4, c5, ?_⟩
  · rw [g1, c1, Link.SetEff.out_gen hf hm]
  · rw [g2, c2]
  · rw [g3, c2, hx]; exact .withV _ _ _
  · rw [c3, Link.SetEff.out_gen hf hm]
    congr 1
    refine if_congr ?_ rfl rfl
    simp only [Link.SetEff.grows_gen hf hm]
    cases o <;> simp [SetOp.op]
  · intro k hk
    rw [Link.SetEff.bucket_gen hf hm]
    refine c6 k ?_
    rcases hk with rfl | rfl | rfl | rfl <;> simp [SetOp.op]

/-- C107 for the generated set, one call. -/
theorem C107_generated_set_steady_partial (hf : 2 ^ 31 ≤ fuel) (h : Link.SetL.Made fuel s a) {o : SetOp K}
    (hi : Link.SetL.IntArg o) (hg : Guard o.op a) {eff : Effects σ K} (hE : Honest eff) (hD : Link.MapEff.Ends eff)
    (hS : Steady eff) (hK : Link.SetEff.AllHashed eff fuel s) (u : σ) :
    (∃ e u' t, askAll eff s.hashFunc s.equalFunc (Link.SetEff.asked fuel s o) u = .err e u' ∧
      Link.SetEff.step eff fuel o ⟨s, u⟩ = .err e ⟨t, u'⟩ ∧ Link.SetEff.Same s t) ∨
    ((Link.SetEff.step eff fuel o ⟨s, u⟩).out = (Link.SetL.step fuel o s).out ∧
      Link.SetEff.Same (Link.SetL.step fuel o s).state (Link.SetEff.step eff fuel o ⟨s, u⟩).state.index ∧
      Link.SetEff.AllHashed eff fuel (Link.SetL.step fuel o s).state) := by
  obtain ⟨c1, -, -⟩ := C106_generated_set_questions hf h hi hg hE hD u
  obtain ⟨s, v, rfl, hm⟩ := h.inv hf
  obtain ⟨g1, g2, w, g3⟩ := Link.SetEff.step_gen (eff := eff) (v := v) (u := u) hf hm o
  obtain ⟨x, hx⟩ := Link.SetEff.state_gen (v := v) hf hm o
  rcases C107_generated_steady_partial hf hm hi.op hg hE hD hS ((Link.SetEff.allHashed_gen hf hm).1 hK) u with
    ⟨e, u', d1, -⟩ | ⟨d1, d2, d3⟩
  · rw [← Link.SetEff.asked_gen (v := v) hf hm] at d1
    obtain ⟨t, h1, h2⟩ := c1 e u' d1
    exact .inl ⟨e, u', t, d1, h1, h2⟩
  · refine .inr ⟨?_, ?_, ?_⟩
    · rw [g1, d1, Link.SetEff.out_gen hf hm]
    · rw [g3, d2, hx]; exact .withV _ _ _
    · rw [hx]
      exact (Link.SetEff.allHashed_gen hf (.call o.op hm hi.op hg)).2 d3

namespace IndexEffProof

/-- The generated set from its constructor, with 4 buckets and load factor 3/4. -/
def runGenSet {σ : Type} (eff : Effects σ Int) (u : σ) (ops : List (SetOp Int)) :
    Option (List (Except Err (Out Int Int)) × σ) :=
  match Gen.KeyIndexedSet.init2 (fun k : Int => BitVec.ofInt 32 k) (fun a b => a == b) 4 (3, 4) rawIndex with
  | .ok _ s => some ((runM (Link.SetEff.step eff 40) ⟨s, u⟩ ops).1, (runM (Link.SetEff.step eff 40) ⟨s, u⟩ ops).2.ext)
  | .err _ _ => none

end IndexEffProof

/-- The generated set with functions that count, that lapse, and that are picky (Props/IndexEff.lean). -/
example : runGenSet counting (0, 0) [.add 1, .add 2, .add 3, .add 4, .containsKey 2, .containsKey 12, .remove 5, .size] =
    some ([.ok (.int 0), .ok (.int 1), .ok (.int 2), .ok (.int 3), .ok (.bool true), .ok (.bool false),
      .ok (.int (-1)), .ok (.int 4)], (11, 2)) := by decide +kernel

example : runGenSet (lapsing 5) 0 [.add 1, .add 2, .add 3, .add 4, .containsKey 1, .containsKey 2, .size, .forEach] =
    some ([.ok (.int 0), .ok (.int 1), .ok (.int 2), .error .illegalState, .ok (.bool true), .ok (.bool false),
      .ok (.int 3), .ok (.keys [1])], 8) := by decide +kernel

example : runGenSet picky 0 [.add 1, .add 7, .add 5, .add 2, .containsKey 7, .lookupEntry 1, .lookupEntry 5, .size,
      .forEach] =
    some ([.ok (.int 0), .error .nullPointer, .ok (.int 1), .ok (.int 2), .error .nullPointer,
      .error .illegalState, .ok (.int 1), .ok (.int 3), .ok (.keys [5, 1, 2])], 4) := by decide +kernel

end Verif
