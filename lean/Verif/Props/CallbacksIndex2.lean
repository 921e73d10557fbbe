import Verif.Proofs.CallbacksIndex2
import Verif.Props.CallbacksIndex
set_option linter.unusedSectionVars false
/-! # Property C93, continued: consumers that remove entries the walk has not reached -/
namespace Verif
open Verif.Index Verif.IndexSpec
variable {K V : Type} [Inhabited K] [Inhabited V]

theorem allKeepNext_guarded {nx : Option Int} : ∀ (ops : List (Op K V)) (a : Abs K V) (s : Index K V),
    AllKeepNext nx a s ops → Guarded a s ops
  | [], _, _, _ => trivial
  | _ :: ops, _, _, h => ⟨h.1.1, allKeepNext_guarded ops _ _ h.2⟩

theorem walks_reach {exact : Prop} {k : Kind} {f : Consumer (Out K V) (Op K V)}
    {seen : List (Out K V)} {s : Index K V} {a : Abs K V} {rest : List Int} {out : List (Out K V)}
    {t : Index K V} {c : Abs K V} (hv : Walks k f seen s a rest out t c) :
    Reach exact s a → Reach exact t c := by
  induction hv with
  | done => exact id
  | step _ ht _ ih => exact fun h => ih (guarded_reach _ h (allKeepNext_guarded _ _ _ ht))

theorem walks_spec {tight : Prop} (κ : Int → K) {k : Kind} {f : Consumer (Out K V) (Op K V)}
    {seen : List (Out K V)} {s : Index K V} {a : Abs K V} {rest : List Int} {out : List (Out K V)}
    {t : Index K V} {c : Abs K V} (hv : Walks k f seen s a rest out t c) :
    (∃ F, Inv tight s a F) → (∀ e ∈ rest, e ∈ a.live) → (∀ r ∈ a.rows, r.key = κ r.entry) →
    (∀ x ∈ c.live, x ∈ a.live) ∧ ∃ es : List Int, es.Sublist rest ∧ (∀ e ∈ rest, e ∈ c.live → e ∈ es) ∧
      (k = .entries → out = seen ++ es.map .int) ∧ (k = .keys → out = seen ++ es.map (fun e => .key (κ e))) ∧
      out.length = seen.length + es.length := by
  induction hv with
  | done => intro _ _ _; exact ⟨fun _ h => h, [], by simp⟩
  | @step seen s a e rest out t c b hb ht _ ih =>
    rintro ⟨F, hI⟩ hR hκ
    obtain ⟨F1, c1, c2, c3⟩ := calls_shrunk _ s a F hI ht
    obtain ⟨i0, es, i1, i2, i3, i4, i5⟩ := ih ⟨F1, c1⟩
      (fun x hx => by simpa using (List.mem_filter.1 hx).2)
      (fun r hr => by
        obtain ⟨v, hv⟩ := c2.2.2.1 r hr
        have := hκ _ hv; exact this)
    refine ⟨fun x hx => c2.live (i0 x hx), e :: es, (i1.trans List.filter_sublist).cons_cons e, ?_, ?_, ?_, ?_⟩
    · intro x hx hc
      rcases List.mem_cons.1 hx with rfl | hx
      · simp
      · exact List.mem_cons_of_mem _ (i2 x (List.mem_filter.2 ⟨hx, by simpa using i0 x hc⟩) hc)
    · rintro rfl
      have hb' : b = .int e := hb
      rw [i3 rfl, hb']; simp
    · rintro rfl
      have hb' : b = .key (κ e) := by
        obtain ⟨r, hr, rfl⟩ := List.mem_map.1 (hR e (by simp))
        have : result (.getKeyAt r.entry) s = .ok (.key r.key) :=
          (step_spec hI (.getKeyAt r.entry) trivial).1 r (.inl hr) rfl
        have hb2 : result (.getKeyAt r.entry) s = .ok b := hb
        rw [this] at hb2
        simp only [Except.ok.injEq] at hb2
        rw [← hb2, hκ r hr]
      rw [i4 rfl, hb']; simp
    · rw [i5]; simp; omega

/-- C93 (partial: for consumers that add no key, do not clear and do not remove the entry that comes next, `Walks`;
any other entry may be removed, also ahead of the walk): the walk visits the entries in the order `l` in which
`forEachEntry` lists them at the start, skipping those removed before it reaches them (`Walks`).  So it visits none
twice and every entry that is still held at the end; what it hands out for keys are the keys it would hand out
without the calls, in that order, without those skipped.  The collection ends up as the calls say. -/
theorem C93_removals_partial {exact : Prop} {s : Index K V} {a : Abs K V} (h : Reach exact s a) (k : Kind)
    (f : Consumer (Out K V) (Op K V)) (l : List Int) (hl : result .forEachEntry s = .ok (.ints l))
    (out : List (Out K V)) (t : Index K V) (b : Abs K V) (hv : Walks k f [] s a l out t b) :
    (∃ n, ∀ fuel, n ≤ fuel → forEachDo k f fuel s = .ok out t) ∧ Reach exact t b ∧
      ∃ es : List Int, es.Sublist l ∧ out.length = es.length ∧ (∀ e ∈ l, e ∈ b.live → e ∈ es) ∧
        (k = .entries → out = es.map .int) ∧
        (k = .keys → ∃ key : Int → K, (∀ e ∈ l, result (.getKeyAt e) s = .ok (.key (key e))) ∧
          result .forEach s = .ok (.keys (l.map key)) ∧ out = (es.map key).map .key) := by
  obtain ⟨F, hI⟩ := reach_inv h
  have hlo : l = order s := by
    have : result .forEachEntry s = .ok (.ints (order s)) := by
      simp only [result, step]; rw [JM.bind_ok (forEachEntry_spec hI)]; rfl
    rw [this] at hl; simpa using hl.symm
  subst hlo
  have hlive : ∀ e ∈ order s, e ∈ a.live := fun e he => (order_perm hI).mem_iff.1 he
  have hκ : ∀ r ∈ a.rows, r.key = s.keys.get r.entry := fun r hr => ((hI.rowsOk r (.inl hr)).1).symm
  refine ⟨⟨s.heads.len + s.nexts.len + 1, fun fuel hf => forEachDo_walks hI hv (by omega)⟩, walks_reach hv h, ?_⟩
  obtain ⟨-, es, h1, h2, h3, h4, h5⟩ := walks_spec s.keys.get hv ⟨F, hI⟩ hlive hκ
  refine ⟨es, h1, by simpa using h5, h2, fun hk => by simpa using h3 hk, fun hk => ⟨s.keys.get, ?_, ?_, ?_⟩⟩
  · intro e he
    obtain ⟨r, hr, rfl⟩ := List.mem_map.1 (hlive e he)
    rw [← hκ r hr]
    exact (step_spec hI (.getKeyAt r.entry) trivial).1 r (.inl hr) rfl
  · simp only [result, step]; rw [JM.bind_ok (forEach_spec hI)]; rfl
  · rw [h4 hk]; simp

/- Non-vacuity: four keys in one chain; at the first the consumer removes the third, which the walk then skips. -/
example : indexWalk 8 3 4 [.put 1 5, .put 9 6, .put 17 7, .put 25 8] .keys
    (fun seen => if seen.length = 1 then [.remove 9] else []) = .ok [.key 25, .key 17, .key 1] := rfl
example : ∃ s, exampleNew 8 3 4 = .ok s ∧ ∃ a,
    Reach True (final s [.put 1 5, .put 9 6, .put 17 7, .put 25 8]) a ∧
    ∃ out t b, Walks .keys (fun seen => if seen.length = 1 then [.remove 9] else []) []
      (final s [.put 1 5, .put 9 6, .put 17 7, .put 25 8]) a [3, 2, 1, 0] out t b ∧
      out = [.key 25, .key 17, .key 1] ∧ result .size t = .ok (.int 3) := by
  refine ⟨_, rfl, _, guarded_reach _ (.new (hash := fun k : Int => BitVec.ofInt 32 k) (eq := fun a b => a == b)
    (ic := 8) (num := 3) (den := 4) rfl (fun _ => by decide)) ?_, ?_⟩
  · refine ⟨⟨int_coherent, by decide⟩, ⟨int_coherent, ?_⟩, ⟨int_coherent, ?_⟩, ⟨int_coherent, ?_⟩, trivial⟩ <;>
      decide +kernel
  · refine ⟨_, _, _, .step (b := .key 25) rfl ?_ (.step (b := .key 17) rfl ?_ (.step (b := .key 1) rfl ?_ .done)),
      rfl, rfl⟩
    · refine ⟨⟨trivial, ?_⟩, trivial⟩
      intro r hr
      have : r = ⟨1, 9, 6⟩ := Option.some.inj (hr.symm.trans rfl)
      subst this; decide
    · exact trivial
    · exact trivial

end Verif
