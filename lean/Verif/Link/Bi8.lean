import Verif.Link.Bi7
/-! # Property C72 of the generated code of the two-sided collections -/
set_option linter.unusedSectionVars false
namespace Verif.Link.BiL
open Verif Verif.Gen BiSpec
variable {many : Bool} {fuel : Nat} {t : Bi} {i : Ideal}

theorem after_next (d : Dir) (k : Kind) (out : Except Err Bi.Out) (i : Ideal) (hd : i.has d)
    (hr : (i.cursor d k).rest ≠ none) :
    (after (.next d k) out i).has d ∧ ((after (.next d k) out i).cursor d k).rest ≠ none := by
  simp only [after]
  split
  · refine ⟨?_, by simp [Ideal.setCursor]⟩
    cases d
    · trivial
    · exact hd
  · exact ⟨hd, hr⟩

/-- The rest of an iteration gives the same results on both. -/
theorem nexts_of (hf : 2 ^ 31 ≤ fuel) {d : Dir} {k : Kind} : ∀ (n : Nat) {s : Bi} {i : Ideal} {v : Arr Unit},
    Bi.Inv s i → Bounds s → s.many = many → i.has d → (i.cursor d k).rest ≠ none →
    (runM (step many fuel) (wv s v) (List.replicate n (.next d k) ++ [.hasNext d k])).1 =
      (runM Bi.step s (List.replicate n (.next d k) ++ [.hasNext d k])).1
  | 0, s, i, v, h, hb, hm, hd, hr => by
    obtain ⟨e1, _⟩ := step_of fuel hf h hb hm (.hasNext d k) ⟨hd, hr⟩ v
    show [_] = [_]
    rw [e1]
  | n + 1, s, i, v, h, hb, hm, hd, hr => by
    obtain ⟨e1, w, e2⟩ := step_of fuel hf h hb hm (.next d k) ⟨hd, hr⟩ v
    obtain ⟨_, h5⟩ := Bi.step_spec h (.next d k) ⟨hd, hr⟩
    obtain ⟨g1, g2⟩ := after_next d k (Bi.step (.next d k) s).out i hd hr
    have := nexts_of hf n (v := w) h5 (step_bounds (.next d k) s hb) (by rw [h5.many, after_many, ← h.many, hm]) g1 g2
    simp only [List.replicate_succ, List.cons_append, runM]
    rw [e1, e2, this]

end Verif.Link.BiL

namespace Verif
open Bi BiSpec
variable {many : Bool} {fuel : Nat} {t : Bi} {i : Ideal}

/-- **C72** The generated code: an edit in the middle of an iteration, unless it removes the very entry the
iterator is about to hand out, leaves it to hand out the rest of its entries that are still held. -/
theorem C72_generated_edit_while_iterating_partial (hf : 2 ^ 31 ≤ fuel) (h : Link.BiL.Made many fuel t i) {d : Dir}
    {k : Kind} (hd : i.has d) {o : Op} (hg : Guard o i) (ho : ¬ BiSpec.Moves d k o) {e : Int} {l : List Int}
    (hr : (i.cursor d k).rest = some (e :: l)) {i' : Ideal} (hi' : i' = after o (Link.BiL.step many fuel o t).out i)
    (hkeep : e ∈ i'.live) (hcov : i'.Covered d (i.cursor d k).key) :
    ∃ A : List Assoc, A.map (·.entry) = e :: l.filter (fun x => decide (x ∈ i'.live)) ∧
      (∀ a ∈ A, a ∈ i'.assocs ∧ a.key d = (i.cursor d k).key) ∧
      (runM (Link.BiL.step many fuel) (Link.BiL.step many fuel o t).state
        (List.replicate A.length (.next d k) ++ [.hasNext d k])).1 =
        A.map (fun a => .ok (.int (a.show d k))) ++ [.ok (.bool false)] := by
  obtain ⟨s, v, rfl, hI, hb, hm⟩ := Link.BiL.made_inv hf h
  obtain ⟨e1, w, e2⟩ := Link.BiL.step_of fuel hf hI hb hm o hg v
  rw [e1] at hi'
  have h2 := (step_spec hI o hg).2
  have hkeep' := hkeep
  rw [hi'] at hkeep'
  have hcur := edit_cursor hI hd hg ho hr hkeep'
  rw [← hi'] at h2 hcur
  have hhas : i'.has d := by
    cases d
    · trivial
    · show i'.many = true
      rw [hi', Link.BiL.after_many]; exact hd
  obtain ⟨A, a1, a2, a3⟩ := drain (d := d) (k := k) (e :: l.filter fun x => decide (x ∈ i'.live)) _ i' h2
    hhas (by rw [hcur]) (by rw [hcur]; exact hcov)
  rw [hcur] at a2
  refine ⟨A, a1, a2, ?_⟩
  have hl : A.length = (e :: l.filter fun x => decide (x ∈ i'.live)).length := by rw [← a1]; simp
  rw [e2, Link.BiL.nexts_of hf A.length h2 (Link.BiL.step_bounds o s hb) (by rw [h2.many, hi', Link.BiL.after_many, ← hI.many, hm]) hhas
    (by rw [hcur]; simp), hl]
  exact a3

/- Non-vacuity: the generated code, an entry later in the chain is removed in the middle of an iteration. -/
example : Link.BiL.results true 20 4 4 6 true [.put 0 0, .put 0 1, .put 0 2, .put 0 3, .withKey .left 0,
      .iterator .left .value, .next .left .value, .removeAt 1, .next .left .value, .next .left .value,
      .hasNext .left .value] =
    [.ok (.int 0), .ok (.int 1), .ok (.int 2), .ok (.int 3), .ok .unit, .ok .unit, .ok (.int 3), .ok (.int 1),
      .ok (.int 2), .ok (.int 0), .ok (.bool false)] := by decide +kernel

/-- **C72** is false of the generated code too if the edit removes the entry about to be handed out. -/
theorem C72_generated_remove_next_refuted :
    Link.BiL.results false 20 4 4 4 true [.put 0 0, .put 0 1, .put 0 2, .withKey .left 0, .iterator .left .entry,
      .removeAt 2, .hasNext .left .entry, .next .left .entry, .hasNext .left .entry,
      .forEachOf .left .entry] =
    [.ok (.int 0), .ok (.int 1), .ok (.int 2), .ok .unit, .ok .unit, .ok (.int 2), .ok (.bool true),
      .ok (.int 2), .ok (.bool false), .ok (.ints [1, 0])] := by decide +kernel

end Verif
