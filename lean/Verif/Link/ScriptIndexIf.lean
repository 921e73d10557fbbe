import Verif.Link.ScriptSet
import Verif.Spec.ScriptUse
/-! C113 for the indexed map and set: consumers of a `removeIf`. -/
set_option linter.unusedSectionVars false
namespace Verif
open ScriptSpec Verif.Index Verif.IndexSpec

namespace Link.Map
variable {K V : Type} [Inhabited K] [Inhabited V]

theorem row_of : ∀ {l : List (Row K V)}, (l.map (·.entry)).Nodup → ∀ {r : Row K V}, r ∈ l →
    (l.find? fun x => x.entry = r.entry) = some r
  | b :: l, hn, r, hr => by
    rw [List.map_cons, List.nodup_cons] at hn
    rw [List.find?_cons]
    rcases List.mem_cons.1 hr with rfl | hr
    · simp
    · have : b.entry ≠ r.entry := fun e => hn.1 (e ▸ List.mem_map_of_mem hr)
      simp only [this, decide_false]
      exact row_of hn.2 hr

theorem live_dropped (a : Abs K V) (e : Int) (F : List Int) :
    (({ a.drop e with free := F } : Abs K V)).live = a.live.filter (· ≠ e) := by
  show (a.rows.filter fun r => r.entry ≠ e).map _ = (a.rows.map _).filter _
  rw [List.filter_map]; rfl

theorem rows_sure (p : K → V → Bool) : ∀ (L : List Int) (a : Abs K V) (u : Nat), L.Nodup → (∀ e ∈ L, e ∈ a.live) →
    a.live.Nodup → (∀ e ∈ L, -2 ^ 31 ≤ e ∧ e < 2 ^ 31) →
    Sure (fun o a => IntArg o ∧ indexMay o a) indexCan (indexMove .entries) (removesRowsIf p)
      (fun r u' b => r = .ok () ∧ u' + b.2.rows.length = u + a.rows.length ∧
        b.2.rows = a.rows.filter (fun r => ¬ (r.entry ∈ L ∧ p r.key r.val)) ∧ b.2.reserved = a.reserved) (L, a) u
  | [], a, u, _, _, _, _ => .done rfl ⟨rfl, rfl, by simp, rfl⟩
  | e :: L, a, u, hL, hm, hn, hs => by
    rw [List.nodup_cons] at hL
    have he := hm e (by simp)
    obtain ⟨r, hr, rfl⟩ := List.mem_map.1 he
    have hrow := row_of hn hr
    have hmove : indexMove .entries (r.entry :: L, a) = some (some (.int r.entry), L, a) := by
      show some _ = _
      rw [hrow]; rfl
    by_cases hp : p r.key r.val
    · have hlive := live_dropped a r.entry (r.entry :: a.free)
      have hlen : ({ a.drop r.entry with free := r.entry :: a.free } : Abs K V).rows.length + 1 = a.rows.length := by
        have h1 : (a.live.filter (· ≠ r.entry)).length + 1 = a.live.length := by
          have h2 : a.live.filter (· ≠ r.entry) = a.live.erase r.entry := by
            rw [hn.erase_eq_filter]
            apply List.filter_congr
            intro x _
            by_cases hx : x = r.entry <;> simp [hx]
          rw [h2, List.length_erase_of_mem he]
          have := List.length_pos_of_mem he
          omega
        rw [← hlive] at h1
        simpa [Abs.live] using h1
      have hstay : ∀ x ∈ L, x ∈ ({ a.drop r.entry with free := r.entry :: a.free } : Abs K V).live := by
        intro x hx
        rw [hlive, List.mem_filter]
        refine ⟨hm x (by simp [hx]), ?_⟩
        have : x ≠ r.entry := fun e => hL.1 (e ▸ hx)
        simpa using this
      have hafter : ∀ x : Except Err (Out K V), after (.removeAt r.entry) x a = { a.drop r.entry with free := r.entry :: a.free } := by
        intro x
        show (if r.entry ∈ a.live then _ else _) = _
        rw [if_pos he]
      have ind := rows_sure p L { a.drop r.entry with free := r.entry :: a.free } (u + 1) hL.2 hstay
        (by rw [hlive]; exact hn.filter _) (fun e he => hs e (by simp [he]))
      refine .step (fun x u' b => x = .ok () ∧ u' = u + 1 ∧ b = (L, { a.drop r.entry with free := r.entry :: a.free })) hmove ?_
        (by simp) ?_
      · refine ⟨⟨trivial, trivial, trivial⟩, fun k b hk => ?_⟩
        obtain ⟨hk, rfl⟩ := hk
        have hk := hk r (.inl hr) rfl
        subst hk
        refine ⟨⟨trivial, trivial, trivial⟩, fun v b hv => ?_⟩
        obtain ⟨hv, rfl⟩ := hv
        have hv := hv r (.inl hr) rfl
        subst hv
        simp only [hp, if_true]
        refine ⟨⟨hs _ (by simp), trivial, fun hx => ?_⟩, fun x b hx => ?_⟩
        · exact hL.1 (List.mem_of_find?_eq_some hx)
        · obtain ⟨hx, rfl⟩ := hx
          have hx' : x = .ok .unit := by
            rcases hx with hx | hx
            · exact hx
            · exact absurd he hx.1
          have heff : IndexSpec.after (.removeAt r.entry) x a = _ := hafter x
          subst hx'
          exact ⟨rfl, rfl, by show (L, _) = _; rw [← heff]; rfl⟩
      · rintro u' b ⟨-, rfl, rfl⟩
        have hfin : ({ a.drop r.entry with free := r.entry :: a.free } : Abs K V).rows.filter
              (fun x => ¬ (x.entry ∈ L ∧ p x.key x.val)) =
            a.rows.filter fun x => ¬ (x.entry ∈ r.entry :: L ∧ p x.key x.val) := by
          show (a.rows.filter fun x => x.entry ≠ r.entry).filter _ = _
          rw [List.filter_filter]
          apply List.filter_congr
          intro x hx
          by_cases hxr : x.entry = r.entry
          · have h1 := row_of hn hx
            rw [hxr, hrow] at h1
            obtain rfl := Option.some.inj h1
            simp [hp]
          · simp [hxr]
        rw [hfin] at ind
        have hc : u + 1 + ({ a.drop r.entry with free := r.entry :: a.free } : Abs K V).rows.length = u + a.rows.length := by
          omega
        rw [hc] at ind
        exact ind
    · have ind := rows_sure p L a u hL.2 (fun x hx => hm x (by simp [hx])) hn (fun e he => hs e (by simp [he]))
      refine .step (fun x u' b => x = .ok () ∧ u' = u ∧ b = (L, a)) hmove ?_ (by simp) ?_
      · refine ⟨⟨trivial, trivial, trivial⟩, fun k b hk => ?_⟩
        obtain ⟨hk, rfl⟩ := hk
        have hk := hk r (.inl hr) rfl
        subst hk
        refine ⟨⟨trivial, trivial, trivial⟩, fun v b hv => ?_⟩
        obtain ⟨hv, rfl⟩ := hv
        have hv := hv r (.inl hr) rfl
        subst hv
        simp only [if_neg hp]
        exact ⟨rfl, rfl, rfl⟩
      · rintro u' b ⟨-, rfl, rfl⟩
        have hfin : a.rows.filter (fun x => ¬ (x.entry ∈ L ∧ p x.key x.val)) =
            a.rows.filter fun x => ¬ (x.entry ∈ r.entry :: L ∧ p x.key x.val) := by
          apply List.filter_congr
          intro x hx
          by_cases hxr : x.entry = r.entry
          · have h1 := row_of hn hx
            rw [hxr, hrow] at h1
            obtain rfl := Option.some.inj h1
            simp [hp]
          · simp [hxr]
        rw [hfin] at ind
        exact ind

end Link.Map

/-- C113, indexed map, with no further hypothesis: a consumer of entries that looks up the key and the value and removes
the entry if `p` says so of them.  Exactly these associations are gone, the others keep their entries and values, and the
consumer has counted what it removed. -/
theorem C113_generated_index_remove_if {K V : Type} [Inhabited K] [Inhabited V] {fuel : Nat} (hf : 2 ^ 31 ≤ fuel)
    {s : Index K V} {a : Abs K V} (h : Link.Map.Made fuel s a) (p : K → V → Bool) :
    ∃ s' b n, Ended (Link.Map.scriptWalk fuel (removesRowsIf p) .entries ⟨s, 0⟩) (.ok ()) ⟨s', n⟩ ∧
      n + b.rows.length = a.rows.length ∧ b.rows = a.rows.filter (fun r => ¬ p r.key r.val) ∧ b.reserved = a.reserved ∧
      Link.Map.Made fuel s' b := by
  obtain ⟨F, hI⟩ := reach_inv (h.reach hf)
  have hout : Link.Map.res fuel .forEachEntry s = .ok (.ints (order s)) := by
    unfold Link.Map.res
    rw [h.eq hf .forEachEntry trivial trivial]
    simp only [Index.step]; rw [JM.bind_ok (forEachEntry_spec hI)]; rfl
  have hperm := order_perm hI
  have hlens : Link.Map.Lens s := Link.Map.Fine.lens ⟨(h.inv hf).1, a, F, hI⟩
  have hr : ∀ e ∈ order s, -2 ^ 31 ≤ e ∧ e < 2 ^ 31 := by
    intro e he
    have h1 := hI.live_range (hperm.mem_iff.1 he)
    unfold Link.Map.Lens at hlens
    omega
  obtain ⟨r, u', b, s', ⟨rfl, h2, h3, h4⟩, h5, h6⟩ := C113_generated_index_partial hf h .entries _ hout (removesRowsIf p) 0 _
    (Link.Map.rows_sure p (order s) a 0 (hperm.nodup_iff.2 hI.live_nodup) (fun e he => hperm.mem_iff.1 he) hI.live_nodup hr)
  refine ⟨s', b.2, u', h5, by simpa using h2, ?_, h4, h6⟩
  rw [h3]
  apply List.filter_congr
  intro x hx
  have : x.entry ∈ order s := hperm.mem_iff.2 (List.mem_map_of_mem hx)
  simp [this]

/- Two of four keys in one chain are removed. -/
example : (match Link.Map.scriptWalk 40 (removesRowsIf fun (k _ : Int) => k == 9 || k == 25) .entries
      ⟨(Link.Map.fourKeys 40).state, 0⟩ with
    | .ok _ t => some (t.ext, (Link.Map.step 40 .forEach t.obj).out)
    | _ => none) = some (2, .ok (.keys [17, 1])) := by decide +kernel

/-- The consumer of keys of a set: it removes those that `p` tells, by key, and counts them. -/
def removesKeysIf {K V : Type} (p : K → Bool) (b : Out K V) (u : Nat) : Script (Link.SetL.SetOp K) (Out K V) Nat :=
  match b with
  | .key k =>
    if p k then .call (.remove k) fun x => match x with
      | .ok _ => .done (u + 1)
      | .error z => .fail z u
    else .done u
  | _ => .fail .illegalState u

namespace Link.SetL
variable {K V : Type} [Inhabited K] [Inhabited V]

theorem find_kept {α : Type} {p q : α → Bool} {x : α} : ∀ {l : List α}, l.find? p = some x → q x = true →
    (l.filter q).find? p = some x
  | b :: l, h, hq => by
    rw [List.find?_cons] at h
    rw [List.filter_cons]
    cases hb : p b with
    | true =>
      rw [hb] at h
      obtain rfl := Option.some.inj h
      rw [if_pos hq, List.find?_cons, hb]
    | false =>
      rw [hb] at h
      split
      · rw [List.find?_cons, hb]; exact find_kept h hq
      · exact find_kept h hq

theorem keys_sure (p : K → Bool) : ∀ (L : List Int) (a : Abs K V) (u : Nat), L.Nodup → (∀ e ∈ L, e ∈ a.live) →
    a.live.Nodup → (∀ r ∈ a.rows, a.find r.key = some r) →
    Sure (fun o a => IntArg o ∧ indexMay o.op a) (fun o => indexCan o.op) (indexMove .keys) (removesKeysIf p)
      (fun r u' b => r = .ok () ∧ u' + b.2.rows.length = u + a.rows.length ∧
        b.2.rows = a.rows.filter (fun r => ¬ (r.entry ∈ L ∧ p r.key)) ∧ b.2.reserved = a.reserved) (L, a) u
  | [], a, u, _, _, _, _ => .done rfl ⟨rfl, rfl, by simp, rfl⟩
  | e :: L, a, u, hL, hm, hn, hs => by
    rw [List.nodup_cons] at hL
    have he := hm e (by simp)
    obtain ⟨r, hr, rfl⟩ := List.mem_map.1 he
    have hrow := Map.row_of hn hr
    have hmove : indexMove .keys (r.entry :: L, a) = some (some (.key r.key), L, a) := by
      show some _ = _
      rw [hrow]; rfl
    by_cases hp : p r.key
    · have hlive := Map.live_dropped a r.entry (r.entry :: a.free)
      have hlen : ({ a.drop r.entry with free := r.entry :: a.free } : Abs K V).rows.length + 1 = a.rows.length := by
        have h1 : (a.live.filter (· ≠ r.entry)).length + 1 = a.live.length := by
          have h2 : a.live.filter (· ≠ r.entry) = a.live.erase r.entry := by
            rw [hn.erase_eq_filter]
            apply List.filter_congr
            intro x _
            by_cases hx : x = r.entry <;> simp [hx]
          rw [h2, List.length_erase_of_mem he]
          have := List.length_pos_of_mem he
          omega
        rw [← hlive] at h1
        simpa [Abs.live] using h1
      have hfind := hs r hr
      have ind := keys_sure p L { a.drop r.entry with free := r.entry :: a.free } (u + 1) hL.2
        (fun x hx => by
          rw [hlive, List.mem_filter]
          refine ⟨hm x (by simp [hx]), ?_⟩
          have : x ≠ r.entry := fun e => hL.1 (e ▸ hx)
          simpa using this)
        (by rw [hlive]; exact hn.filter _)
        (fun x hx => by
          obtain ⟨h1, h2⟩ := List.mem_filter.1 hx
          exact find_kept (hs x h1) h2)
      refine .step (fun x u' b => x = .ok () ∧ u' = u + 1 ∧ b = (L, { a.drop r.entry with free := r.entry :: a.free })) hmove ?_
        (by simp) ?_
      · simp only [removesKeysIf, hp, if_true]
        refine ⟨⟨trivial, trivial, fun r' hr' hx => ?_⟩, fun x b hx => ?_⟩
        · obtain rfl : r = r' := Option.some.inj (hfind.symm.trans hr')
          exact hL.1 (List.mem_of_find?_eq_some hx)
        · obtain ⟨hx, rfl⟩ := hx
          simp only [SetOp.op, IndexSpec.Ok, hfind] at hx
          subst hx
          exact ⟨rfl, rfl, by simp only [SetOp.op, IndexSpec.after, hfind]⟩
      · rintro u' b ⟨-, rfl, rfl⟩
        have hfin : ({ a.drop r.entry with free := r.entry :: a.free } : Abs K V).rows.filter
              (fun x => ¬ (x.entry ∈ L ∧ p x.key)) =
            a.rows.filter fun x => ¬ (x.entry ∈ r.entry :: L ∧ p x.key) := by
          show (a.rows.filter fun x => x.entry ≠ r.entry).filter _ = _
          rw [List.filter_filter]
          apply List.filter_congr
          intro x hx
          by_cases hxr : x.entry = r.entry
          · have h1 := Map.row_of hn hx
            rw [hxr, hrow] at h1
            obtain rfl := Option.some.inj h1
            simp [hp]
          · simp [hxr]
        rw [hfin] at ind
        have hc : u + 1 + ({ a.drop r.entry with free := r.entry :: a.free } : Abs K V).rows.length = u + a.rows.length := by
          omega
        rw [hc] at ind
        exact ind
    · have ind := keys_sure p L a u hL.2 (fun x hx => hm x (by simp [hx])) hn hs
      refine .step (fun x u' b => x = .ok () ∧ u' = u ∧ b = (L, a)) hmove ?_ (by simp) ?_
      · simp only [removesKeysIf, if_neg hp]
        exact ⟨rfl, rfl, rfl⟩
      · rintro u' b ⟨-, rfl, rfl⟩
        have hfin : a.rows.filter (fun x => ¬ (x.entry ∈ L ∧ p x.key)) =
            a.rows.filter fun x => ¬ (x.entry ∈ r.entry :: L ∧ p x.key) := by
          apply List.filter_congr
          intro x hx
          by_cases hxr : x.entry = r.entry
          · have h1 := Map.row_of hn hx
            rw [hxr, hrow] at h1
            obtain rfl := Option.some.inj h1
            simp [hp]
          · simp [hxr]
        rw [hfin] at ind
        exact ind

end Link.SetL

/-- C113, indexed set: a consumer of keys that removes, by key, those that `p` tells, when every key equals itself.
Exactly these keys are gone, and the consumer has counted them. -/
theorem C113_generated_set_remove_if {K V : Type} [Inhabited K] [Inhabited V] {fuel : Nat} (hf : 2 ^ 31 ≤ fuel)
    {s : Index K V} {a : Abs K V} (h : Link.SetL.Made fuel s a) (p : K → Bool) (hq : ∀ r ∈ a.rows, a.eq r.key r.key) :
    ∃ s' b n, Ended (Link.SetL.scriptWalk fuel (removesKeysIf p) true ⟨s, 0⟩) (.ok ()) ⟨s', n⟩ ∧
      n + b.rows.length = a.rows.length ∧ b.rows = a.rows.filter (fun r => ¬ p r.key) ∧ b.reserved = a.reserved ∧
      Link.SetL.Made fuel s' b := by
  obtain ⟨s1, w, rfl, hm⟩ := h.inv hf
  obtain ⟨F, hI⟩ := reach_inv (hm.reach hf)
  have hout : (Link.SetL.step fuel .forEachEntry (Link.SetL.withV s1 w)).out = .ok (.ints (order s1)) := by
    rw [(Link.SetL.step_of hI fuel .forEachEntry w).1]
    show (Link.Map.step fuel .forEachEntry s1).out = _
    rw [hm.eq hf .forEachEntry trivial trivial]
    simp only [Index.step]; rw [JM.bind_ok (forEachEntry_spec hI)]; rfl
  have hperm := order_perm hI
  obtain ⟨r, u', b, s', ⟨rfl, h2, h3, h4⟩, h5, h6⟩ := C113_generated_set_partial hf h true _ hout (removesKeysIf p) 0 _
    (Link.SetL.keys_sure p (order s1) a 0 (hperm.nodup_iff.2 hI.live_nodup) (fun e he => hperm.mem_iff.1 he) hI.live_nodup
      (fun r hr => find_self hI hr (hq r hr)))
  refine ⟨s', b.2, u', h5, by simpa using h2, ?_, h4, h6⟩
  rw [h3]
  apply List.filter_congr
  intro x hx
  have : x.entry ∈ order s1 := hperm.mem_iff.2 (List.mem_map_of_mem hx)
  simp [this]

/- Three of four keys in one chain are removed. -/
example : (match Link.SetL.scriptWalk 40 (removesKeysIf fun k : Int => k != 17) true ⟨(Link.SetL.fourKeys 40).state, 0⟩ with
    | .ok _ t => some (t.ext, (Link.SetL.step 40 .forEach t.obj).out)
    | _ => none) = some (3, .ok (.keys [17])) := by decide +kernel

end Verif
