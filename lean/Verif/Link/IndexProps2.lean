import Verif.Link.IndexProps
import Verif.Link.Iterator
/-! # Property C41 of the generated indexed map: iterators notice modifications -/
set_option linter.unusedSectionVars false
namespace Verif.Link.Map
open Verif.Index Verif.IndexSpec Verif.Gen
variable {K V : Type} [Inhabited K] [Inhabited V] {fuel : Nat}

/-- A guarded history of generated calls, from any collection that the model's programs can hold, is the
history of model calls. -/
theorem held_run (hf : 2 ^ 31 ≤ fuel) (ops : List (Op K V)) : ∀ {s : Index K V} {a : Abs K V} {F : List Int},
    Bx s → Inv False s a F → Guarded fuel a s ops →
    runM (step fuel) s ops = runM Index.step s ops := by
  induction ops with
  | nil => intros; rfl
  | cons o os ih =>
    intro s a F hb h ⟨hi, hg, hr⟩
    have he := step_eq fuel hf h hb o hi hg
    obtain ⟨_, _, F', h2⟩ := step_spec h o hg
    unfold res at hr
    rw [he] at hr
    have := ih (step_bx o s hb) h2 hr
    simp only [runM, he, this]

theorem guarded_left (ops rest : List (Op K V)) : ∀ {s : Index K V} {a : Abs K V}, Guarded fuel a s (ops ++ rest) →
    Guarded fuel a s ops := by
  induction ops with
  | nil => intros; trivial
  | cons o os ih => intro s a ⟨h1, h2, h3⟩; exact ⟨h1, h2, ih h3⟩

theorem next_cme (s : Iterating K V) (h : s.map.modificationCount ≠ s.it.internalModCount) :
    itStep fuel .next s = .err .concurrentModification s ∧ itStep fuel .remove s = .err .concurrentModification s := by
  constructor
  · simp only [itStep]
    apply JM.bind_err
    unfold Gen.EntryIterator.KeyValueIndexedMap.next
    rw [JM.bind_ok (JM.get_apply _), if_pos (by simpa using h)]; rfl
  · simp only [itStep]
    apply JM.bind_err
    unfold Gen.EntryIterator.KeyValueIndexedMap.remove0
    rw [JM.bind_ok (JM.get_apply _), if_pos (by simpa using h)]; rfl

end Verif.Link.Map

namespace Verif
open Verif.Index Verif.IndexSpec Verif.Iterating
open Link.Map (Made res IntArg)
variable {K V : Type} [Inhabited K] [Inhabited V] {fuel : Nat} {s : Index K V} {a : Abs K V}

/-- C41 for the generated class and its generated iterator: an iterator in any state (after any calls, at most
2^30), then fewer than 2^31 guarded calls on the map, none of them `clear`, one of which changes its size: the
iterator's `next` and `remove` throw ConcurrentModificationException and change nothing. -/
theorem C41_generated_fail_fast_partial (hf : 2 ^ 31 ≤ fuel) (h : Made fuel s a) (it : Iter) (its : List ItOp)
    (hits : its.length ≤ 2 ^ 30) (ops pre post : List (Op K V)) (o : Op K V) (hops : ops = pre ++ o :: post)
    (hlen : ops.length < 2 ^ 31) (hclear : ∀ o ∈ ops, o ≠ .clear) :
    ∃ l t, res fuel .forEachEntry s = .ok (.ints l) ∧
      Gen.EntryIterator.KeyValueIndexedMap.iterator0 ⟨s, it⟩ = .ok (some ()) t ∧
      let u := (runM (Link.Map.itStep fuel) t its).2
      (Link.Map.Guarded fuel (runS Cursor.step ⟨.start, l, a⟩ its).2.map u.map ops →
        res fuel .size (Link.Map.final fuel u.map (pre ++ [o])) ≠ res fuel .size (Link.Map.final fuel u.map pre) →
        let v : Iterating K V := ⟨Link.Map.final fuel u.map ops, u.it⟩
        Link.Map.itStep fuel .next v = .err .concurrentModification v ∧
        Link.Map.itStep fuel .remove v = .err .concurrentModification v) := by
  have e : (2 : Nat) ^ 30 = 1073741824 := by decide
  obtain ⟨hb, hr⟩ := h.inv hf
  obtain ⟨F, hF⟩ := reach_inv hr
  obtain ⟨it', h1, h2⟩ := cinv_reset hF it
  have hc := (cursor_run its 0 _ _ h2 (by omega) (by omega)).2
  refine ⟨order s, ⟨s, it'⟩, ?_, ?_, ?_⟩
  · unfold res; rw [h.eq hf .forEachEntry trivial trivial, step_entries hF]; rfl
  · rw [Link.Map.iterator_eq.2, JM.bind_ok h1]; rfl
  intro u hg hsz v
  have hu : u = (runM Iterating.itStep (⟨s, it'⟩ : Iterating K V) its).2 := by
    show (runM _ _ its).2 = _
    rw [Link.Map.itRun_eq fuel hf its 0 _ _ h2 (by omega) (by omega)]
  have h3 := hc.mod
  obtain ⟨⟨G, hG⟩, _⟩ := hc
  rw [← hu] at h3 hG
  have hbu : Link.Map.Bx u.map := by rw [hu]; exact Link.Map.itRun_bx its _ hb
  have hfin : ∀ ps qs, ops = ps ++ qs → Link.Map.final fuel u.map ps = IndexSpec.final u.map ps := by
    intro ps qs hp
    unfold Link.Map.final IndexSpec.final
    rw [Link.Map.held_run hf ps hbu hG (Link.Map.guarded_left ps qs (hp ▸ hg))]
  obtain ⟨d, g1, g2, g3, g4⟩ := moved_history ops u.map hclear
  have hd := g4 ⟨pre, o, post, hops, fun hh => hsz (by
    rw [hfin (pre ++ [o]) post (by simp [hops]), hfin pre (o :: post) hops]
    unfold res
    simp only [Link.Map.step, Gen.KeyValueIndexedMap.size, JM.bind_apply, JM.get_apply, JM.pure_apply, Res.out_ok]
    rw [hh])⟩
  have e31 : (2 : Nat) ^ 31 = 2147483648 := by decide
  rw [e31] at hlen
  apply Link.Map.next_cme
  show (Link.Map.final fuel u.map ops).modificationCount ≠ u.it.internalModCount
  rw [hfin ops [] (by simp), h3]
  show _ ≠ u.map.modificationCount
  omega

/- Non-vacuity: the generated iterator after a removal of its own, then a removal and an addition by the map. -/
example : (match Gen.KeyValueIndexedMap.init2 (fun k : Int => BitVec.ofInt 32 k) (fun a b => a == b) 2 (1, 1) rawIndex with
    | .ok _ s =>
      let s := Link.Map.final 40 s [Op.put 1 11, .put 9 99, .put 2 22, .put 17 5]
      let u := (runM (Link.Map.itStep 40) (Gen.EntryIterator.KeyValueIndexedMap.iterator0 (⟨s, exampleIter⟩ : Iterating Int Int)).state
        [.next, .remove, .next]).2
      let v : Iterating Int Int := ⟨Link.Map.final 40 u.map [Op.remove 1, .get 2, .add 5], u.it⟩
      [(Link.Map.itStep 40 .next u).out, (Link.Map.itStep 40 .next v).out, (Link.Map.itStep 40 .remove v).out]
    | .err e _ => [.error e]) =
    [.ok (some 1), .error .concurrentModification, .error .concurrentModification] := by
  decide +kernel

end Verif
