import Verif.Link.ScriptIndexIf
import Verif.Spec.ScriptUse
/-! C113 for the indexed map: the consumer of a `replaceAll`. -/
set_option linter.unusedSectionVars false
namespace Verif
open ScriptSpec Verif.Index Verif.IndexSpec

namespace Link.Map
variable {K V : Type} [Inhabited K] [Inhabited V]

theorem live_setVal (e : Int) (v : V) (l : List (Row K V)) : (Abs.setVal e v l).map (·.entry) = l.map (·.entry) := by
  unfold Abs.setVal
  rw [List.map_map]
  apply List.map_congr_left
  intro x _
  simp only [Function.comp]
  split <;> rfl

theorem replace_sure (f : K → V → V) : ∀ (L : List Int) (a : Abs K V) (u : Nat), L.Nodup → (∀ e ∈ L, e ∈ a.live) →
    a.live.Nodup → (∀ e ∈ L, e ∉ a.held) →
    Sure (fun o a => IntArg o ∧ indexMay o a) indexCan (indexMove .entries) (replacesRows f)
      (fun r u' b => r = .ok () ∧ u' = u + L.length ∧
        b.2.rows = a.rows.map (fun r => if r.entry ∈ L then { r with val := f r.key r.val } else r) ∧
        b.2.reserved = a.reserved) (L, a) u
  | [], a, u, _, _, _, _ => .done rfl ⟨rfl, rfl, by simp, rfl⟩
  | e :: L, a, u, hL, hm, hn, hh => by
    rw [List.nodup_cons] at hL
    have he := hm e (by simp)
    obtain ⟨r, hr, rfl⟩ := List.mem_map.1 he
    have hrow := row_of hn hr
    have hmove : indexMove .entries (r.entry :: L, a) = some (some (.int r.entry), L, a) := by
      show some _ = _
      rw [hrow]; rfl
    have hres : Abs.setVal r.entry (f r.key r.val) a.reserved = a.reserved := by
      unfold Abs.setVal
      conv_rhs => rw [← List.map_id a.reserved]
      apply List.map_congr_left
      intro x hx
      have : x.entry ≠ r.entry := fun e => hh r.entry (by simp) (e ▸ List.mem_map_of_mem hx)
      simp [this]
    let a' : Abs K V := { a with rows := Abs.setVal r.entry (f r.key r.val) a.rows, reserved := a.reserved }
    have hlive : a'.live = a.live := live_setVal _ _ _
    have ind := replace_sure f L a' (u + 1) hL.2 (fun x hx => by rw [hlive]; exact hm x (by simp [hx]))
      (by rw [hlive]; exact hn) (fun x hx => hh x (by simp [hx]))
    refine .step (fun x u' b => x = .ok () ∧ u' = u + 1 ∧ b = (L, a')) hmove ?_ (by simp) ?_
    · refine ⟨⟨trivial, trivial, trivial⟩, fun k b hk => ?_⟩
      obtain ⟨hk, rfl⟩ := hk
      have hk := hk r (.inl hr) rfl
      subst hk
      refine ⟨⟨trivial, trivial, trivial⟩, fun v b hv => ?_⟩
      obtain ⟨hv, rfl⟩ := hv
      have hv := hv r (.inl hr) rfl
      subst hv
      refine ⟨⟨trivial, trivial, trivial⟩, fun x b hx => ?_⟩
      obtain ⟨hx, rfl⟩ := hx
      have hx' : x = .ok .unit := hx (.inl he)
      subst hx'
      refine ⟨rfl, rfl, ?_⟩
      show (L, ({ a with rows := Abs.setVal r.entry (f r.key r.val) a.rows,
                         reserved := Abs.setVal r.entry (f r.key r.val) a.reserved } : Abs K V)) = _
      rw [hres]
    · rintro u' b ⟨-, rfl, rfl⟩
      have hfin : a'.rows.map (fun x => if x.entry ∈ L then { x with val := f x.key x.val } else x) =
          a.rows.map (fun x => if x.entry ∈ r.entry :: L then { x with val := f x.key x.val } else x) := by
        show (Abs.setVal r.entry (f r.key r.val) a.rows).map _ = _
        unfold Abs.setVal
        rw [List.map_map]
        apply List.map_congr_left
        intro x hx
        simp only [Function.comp]
        by_cases hxr : x.entry = r.entry
        · have h1 := row_of hn hx
          rw [hxr, hrow] at h1
          obtain rfl := Option.some.inj h1
          simp [hL.1]
        · simp [hxr]
      rw [hfin] at ind
      have hc : u + 1 + L.length = u + (r.entry :: L).length := by simp only [List.length_cons]; omega
      rw [hc] at ind
      exact ind

end Link.Map

/-- C113, indexed map, with no further hypothesis: a consumer of entries that puts a new value, found from key and value,
at each entry.  Every association has its new value, once; keys, entries and reserved entries are as before, and the
consumer has counted the associations. -/
theorem C113_generated_index_replace_all {K V : Type} [Inhabited K] [Inhabited V] {fuel : Nat} (hf : 2 ^ 31 ≤ fuel)
    {s : Index K V} {a : Abs K V} (h : Link.Map.Made fuel s a) (f : K → V → V) :
    ∃ s' b, Ended (Link.Map.scriptWalk fuel (replacesRows f) .entries ⟨s, 0⟩) (.ok ()) ⟨s', a.rows.length⟩ ∧
      b.rows = a.rows.map (fun r => { r with val := f r.key r.val }) ∧ b.reserved = a.reserved ∧
      Link.Map.Made fuel s' b := by
  obtain ⟨F, hI⟩ := reach_inv (h.reach hf)
  have hout : Link.Map.res fuel .forEachEntry s = .ok (.ints (order s)) := by
    unfold Link.Map.res
    rw [h.eq hf .forEachEntry trivial trivial]
    simp only [Index.step]; rw [JM.bind_ok (forEachEntry_spec hI)]; rfl
  have hperm := order_perm hI
  obtain ⟨r, u', b, s', ⟨rfl, h2, h3, h4⟩, h5, h6⟩ := C113_generated_index_partial hf h .entries _ hout (replacesRows f) 0 _
    (Link.Map.replace_sure f (order s) a 0 (hperm.nodup_iff.2 hI.live_nodup) (fun e he => hperm.mem_iff.1 he) hI.live_nodup
      (fun e he => hI.live_held (hperm.mem_iff.1 he)))
  have hlen : u' = a.rows.length := by
    rw [h2, hperm.length_eq]; simp [Abs.live]
  subst hlen
  refine ⟨s', b.2, h5, ?_, h4, h6⟩
  rw [h3]
  apply List.map_congr_left
  intro x hx
  have : x.entry ∈ order s := hperm.mem_iff.2 (List.mem_map_of_mem hx)
  simp [this]

/- Four keys in one chain get new values; they are handed out as before. -/
example : (match Link.Map.scriptWalk 40 (replacesRows fun (k v : Int) => 2 * k + v) .entries
      ⟨(Link.Map.fourKeys 40).state, 0⟩ with
    | .ok _ t => some (t.ext, (Link.Map.step 40 .forEach t.obj).out, (Link.Map.step 40 .forEachValue t.obj).out)
    | _ => none) = some (4, .ok (.keys [25, 17, 9, 1]), .ok (.vals [58, 41, 24, 7])) := by decide +kernel

end Verif
