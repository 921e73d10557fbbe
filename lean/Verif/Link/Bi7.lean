import Verif.Link.Bi6
/-! # Properties C59 - C64 of the generated code of the two-sided collections

`Link.BiL.step many fuel` is one public call of the generated `CompactManyToMany` (`many`) or
`CompactOneToMany`, `Link.BiL.new` its constructor; `fuel` bounds the turns of each loop, and `2 ^ 31` turns
are always enough.  The specification is the same as for the model (Spec/Bi.lean). -/
set_option linter.unusedSectionVars false
namespace Verif.Link.BiL
open Verif Verif.Gen BiSpec
variable {many : Bool} {fuel : Nat} {t : Bi} {i : Ideal}

/-- `t` was made by the generated constructor and guarded calls of generated methods, and `i` is what these
calls and their results say. -/
inductive Made (many : Bool) (fuel : Nat) : Bi → Ideal → Prop
  | new {il ir ic : Int} {counts : Bool} {u : Unit} {t : Bi} : new many il ir ic counts (raw many) = .ok u t →
      Made many fuel t (start many il ir ic counts)
  | call {t : Bi} {i : Ideal} (o : Bi.Op) : Made many fuel t i → Guard o i →
      Made many fuel (step many fuel o t).state (after o (step many fuel o t).out i)

theorem made_inv (hf : 2 ^ 31 ≤ fuel) (h : Made many fuel t i) :
    ∃ s v, t = wv s v ∧ Bi.Inv s i ∧ Bounds s ∧ s.many = many := by
  induction h with
  | @new il ir ic counts u t h =>
    have hn := new_gen many il ir ic counts
    rw [h] at hn
    obtain ⟨s, v, h1, h2, h3, h4, _⟩ := hn
    exact ⟨s, v, h1, h2, h3, h4⟩
  | call o _ hg ih =>
    obtain ⟨s, v, rfl, h2, h3, h4⟩ := ih
    obtain ⟨e1, w, e2⟩ := step_of fuel hf h2 h3 h4 o hg v
    obtain ⟨_, h5⟩ := Bi.step_spec h2 o hg
    refine ⟨_, w, e2, e1 ▸ h5, step_bounds o s h3, ?_⟩
    rw [h5.many, after_many, ← h2.many, h4]

/-- Two guarded calls give the same results on both. -/
theorem two_of (hf : 2 ^ 31 ≤ fuel) {s : Bi} {v : Arr Unit} (h : Bi.Inv s i) (hb : Bounds s) (hm : s.many = many)
    {o p : Bi.Op} (ho : Guard o i) (hp : Guard p (after o (Bi.step o s).out i)) :
    (runM (step many fuel) (wv s v) [o, p]).1 = (runM Bi.step s [o, p]).1 := by
  obtain ⟨e1, w, e2⟩ := step_of fuel hf h hb hm o ho v
  obtain ⟨_, h5⟩ := Bi.step_spec h o ho
  obtain ⟨e3, _⟩ := step_of fuel hf h5 (step_bounds o s hb) (by rw [h5.many, after_many, ← h.many, hm]) p hp w
  show [_, _] = [_, _]
  rw [e1, e2, e3]

theorem key_two (hf : 2 ^ 31 ≤ fuel) {s : Bi} {v : Arr Unit} (h : Bi.Inv s i) (hb : Bounds s) (hm : s.many = many)
    {d : Dir} (hd : i.has d) {k : Int} {p : Bi.Op} (hp : p = .count d ∨ ∃ x, p = .forEachOf d x) :
    (runM (step many fuel) (wv s v) [.withKey d k, p]).1 = (runM Bi.step s [.withKey d k, p]).1 := by
  refine two_of hf h hb hm hd ?_
  rcases hp with rfl | ⟨x, rfl⟩ <;> cases d <;> exact hd

/-- The pair is in the collection, as told by `contains`. -/
def Holds (many : Bool) (fuel : Nat) (t : Bi) (l r : Int) : Prop :=
  (step many fuel (.contains l r) t).out = .ok (.bool true)

/-- Results of a history on a new collection. -/
def results (many : Bool) (fuel : Nat) (il ir ic : Int) (counts : Bool) (ops : List Bi.Op) : List (Except Err Bi.Out) :=
  match new many il ir ic counts (raw many) with
  | .ok _ t => (runM (step many fuel) t ops).1
  | .err e _ => [.error e]

end Verif.Link.BiL

namespace Verif
open BiSpec
variable {many : Bool} {fuel : Nat} {t : Bi} {i : Ideal}

/-- **C59** The generated code: every result of every guarded history on a new collection is that of the ideal set
of pairs. -/
theorem C59_generated_history_partial {il ir ic : Int} {counts : Bool} {u : Unit} (hf : 2 ^ 31 ≤ fuel)
    (h : Link.BiL.new many il ir ic counts (Link.BiL.raw many) = .ok u t) (ops : List Bi.Op) :
    Legal (start many il ir ic counts) ops (runM (Link.BiL.step many fuel) t ops).1 := by
  obtain ⟨s, v, rfl, h1, h2, h3⟩ := Link.BiL.made_inv hf (.new h)
  exact Link.BiL.legal fuel hf ops h1 h2 h3

/-- **C59** The generated code: histories that stay within the initial capacity. -/
theorem C59_generated_small_history_partial {il ir ic : Int} {counts : Bool} {u : Unit} (hf : 2 ^ 31 ≤ fuel)
    (h : Link.BiL.new many il ir ic counts (Link.BiL.raw many) = .ok u t) (ops : List Bi.Op) :
    LegalSmall ic (start many il ir ic counts) ops (runM (Link.BiL.step many fuel) t ops).1 := by
  obtain ⟨s, v, rfl, h1, h2, h3⟩ := Link.BiL.made_inv hf (.new h)
  have hn := Link.BiL.new_gen many il ir ic counts
  rw [h] at hn
  obtain ⟨_, _, _, _, _, _, s', hs'⟩ := hn
  exact Link.BiL.legalSmall fuel hf ops h1 (Bi.new_roomy (Bi.new_cap hs')) h2 h3

/-- **C59** The generated code: a set of pairs. -/
theorem C59_generated_set_of_pairs_partial (hf : 2 ^ 31 ≤ fuel) (h : Link.BiL.Made many fuel t i) :
    (i.assocs.map fun a => (a.left, a.right)).Nodup ∧ i.live.Nodup ∧
    (Link.BiL.step many fuel .size t).out = .ok (.int i.assocs.length) ∧
    (∀ l r, IsInt l → IsInt r → (Link.BiL.Holds many fuel t l r ↔ ∃ a ∈ i.assocs, a.left = l ∧ a.right = r)) ∧
    (∀ a ∈ i.assocs, (Link.BiL.step many fuel (.lookupEntry a.left a.right) t).out = .ok (.int a.entry) ∧ 0 ≤ a.entry) ∧
    (∀ l r, IsInt l → IsInt r → ¬ Link.BiL.Holds many fuel t l r →
      (Link.BiL.step many fuel (.lookupEntry l r) t).out = .ok (.int (-1))) := by
  obtain ⟨s, v, rfl, hI, hb, hm⟩ := Link.BiL.made_inv hf h
  have hst : ∀ o, Guard o i → (Link.BiL.step many fuel o (Link.BiL.wv s v)).out = (Bi.step o s).out :=
    fun o hg => (Link.BiL.step_of fuel hf hI hb hm o hg v).1
  have hc : ∀ l r, IsInt l → IsInt r →
      (Link.BiL.Holds many fuel (Link.BiL.wv s v) l r ↔ ∃ a ∈ i.assocs, a.left = l ∧ a.right = r) := by
    intro l r hl hr
    unfold Link.BiL.Holds
    rw [hst (.contains l r) ⟨hl, hr⟩, Bi.contains_spec hI hl hr]
    constructor
    · intro hh
      simp only [Except.ok.injEq, Bi.Out.bool.injEq] at hh
      obtain ⟨a, ha⟩ := Option.isSome_iff_exists.1 hh
      exact ⟨a, Bi.find_some ha⟩
    · rintro ⟨a, ha, rfl, rfl⟩
      rw [Bi.find_mem hI ha]; rfl
  refine ⟨Bi.pairs_nodup hI, Bi.nodup_live hI, by rw [hst .size trivial]; exact (Bi.step_spec hI .size trivial).1, hc, ?_, ?_⟩
  · intro a ha
    have hi := hI.ints a (.inl ha)
    have := (Bi.step_spec hI (.lookupEntry a.left a.right) hi).1
    simp only [Ok, Bi.find_mem hI ha] at this
    exact ⟨(hst (.lookupEntry a.left a.right) hi).trans this, (Bi.key_at hI (.inl ha)).1⟩
  · intro l r hl hr hn
    have := (Bi.step_spec hI (.lookupEntry l r) ⟨hl, hr⟩).1
    rw [hst (.lookupEntry l r) ⟨hl, hr⟩]
    cases hf : i.find l r with
    | none => simp only [Ok, hf] at this; exact this
    | some a => exact absurd ((hc l r hl hr).2 ⟨a, Bi.find_some hf⟩) hn

/-- **C59** The generated code: the constructor refuses what the model's constructor refuses, with the same
exception. -/
theorem C59_generated_new {il ir ic : Int} {counts : Bool} :
    (Link.BiL.new many il ir ic counts (Link.BiL.raw many)).out.map (fun _ => ()) =
      (Bi.new many il ir ic counts).map (fun _ => ()) := by
  have hn := Link.BiL.new_gen many il ir ic counts
  cases h : Link.BiL.new many il ir ic counts (Link.BiL.raw many) with
  | ok u t =>
    rw [h] at hn
    obtain ⟨_, _, _, _, _, _, s', hs'⟩ := hn
    rw [hs']; rfl
  | err e t =>
    rw [h] at hn
    have hn : Bi.new many il ir ic counts = .error e := hn
    rw [hn]; rfl

/-- **C59** The generated code: the constructors without arguments always make a collection, the one that 16 as every
initial size and counts kept make. -/
theorem C59_generated_default_constructors (hf : 2 ^ 31 ≤ fuel) :
    (∃ t, Gen.Pairs.OneToMany.init0 (Link.BiL.raw false) = .ok () t ∧ Link.BiL.Made false fuel t (start false 16 16 16 true) ∧
      ∀ ops, Legal (start false 16 16 16 true) ops (runM (Link.BiL.step false fuel) t ops).1) ∧
    ∃ t, Gen.Pairs.ManyToMany.init0 (Link.BiL.raw true) = .ok () t ∧ Link.BiL.Made true fuel t (start true 16 16 16 true) ∧
      ∀ ops, Legal (start true 16 16 16 true) ops (runM (Link.BiL.step true fuel) t ops).1 := by
  have ok : ∀ many, ∃ t, Link.BiL.new many 16 16 16 true (Link.BiL.raw many) = .ok () t := by
    intro many
    have h := C59_generated_new (many := many) (il := 16) (ir := 16) (ic := 16) (counts := true)
    have hm : (Bi.new many 16 16 16 true).map (fun _ => ()) = .ok () := by cases many <;> decide +kernel
    rw [hm] at h
    cases hr : Link.BiL.new many 16 16 16 true (Link.BiL.raw many) with
    | ok u t => exact ⟨t, rfl⟩
    | err e t => rw [hr] at h; cases h
  obtain ⟨t, ht⟩ := ok false
  obtain ⟨t', ht'⟩ := ok true
  refine ⟨⟨t, ?_, .new ht, fun ops => C59_generated_history_partial hf ht ops⟩,
    t', ?_, .new ht', fun ops => C59_generated_history_partial hf ht' ops⟩
  · have ht : Gen.Pairs.OneToMany.init3 16 16 true (Link.BiL.raw false) = .ok () t := ht
    simp only [Gen.Pairs.OneToMany.init0, JM.bind_apply, ht]; rfl
  · have ht' : Gen.Pairs.ManyToMany.init4 16 16 16 true (Link.BiL.raw true) = .ok () t' := ht'
    simp only [Gen.Pairs.ManyToMany.init0, JM.bind_apply, ht']; rfl

/-- **C60**, **C61** The generated code: `forEachEntry` after `withLeft`, `withRight` hands out exactly the entries
of the associations of the key, each once. -/
theorem C60_generated_entries_partial (hf : 2 ^ 31 ≤ fuel) (h : Link.BiL.Made many fuel t i) {d : Dir} (hd : i.has d)
    (key : Int) (hc : i.Covered d key) :
    ∃ es, (runM (Link.BiL.step many fuel) t [.withKey d key, .forEachOf d .entry]).1 = [.ok .unit, .ok (.ints es)] ∧
      es.Nodup ∧ ∀ e, e ∈ es ↔ ∃ a ∈ i.assocs, a.key d = key ∧ a.entry = e := by
  obtain ⟨s, v, rfl, hI, hb, hm⟩ := Link.BiL.made_inv hf h
  rw [Link.BiL.key_two hf hI hb hm hd (.inr ⟨_, rfl⟩)]
  refine ⟨_, Bi.walk_entries hI hd key hc, Bi.entries_nodup hI _ _, fun e => ?_⟩
  rw [Bi.listOf_entry]; exact Bi.entries_mem

/-- **C60** The generated code: `withLeft(l).forEachValue` hands out exactly the right keys associated with `l`, each
once, most recent association first. -/
theorem C60_generated_left_values_partial (hf : 2 ^ 31 ≤ fuel) (h : Link.BiL.Made many fuel t i) {l : Int} (h0 : 0 ≤ l)
    (hs : l < i.span .left) (hi : IsInt l) (hc : i.Covered .left l) :
    ∃ vs, (runM (Link.BiL.step many fuel) t [.withKey .left l, .forEachOf .left .value]).1 = [.ok .unit, .ok (.ints vs)] ∧
      vs.Nodup ∧ (∀ r, IsInt r → (r ∈ vs ↔ Link.BiL.Holds many fuel t l r)) ∧
      vs = (i.assocs.filter fun a => a.left = l).map (·.right) := by
  obtain ⟨s, v, rfl, hI, hb, hm⟩ := Link.BiL.made_inv hf h
  rw [Link.BiL.key_two hf hI hb hm (d := .left) trivial (.inr ⟨_, rfl⟩)]
  refine ⟨_, Bi.walk_values hI (d := .left) trivial h0 hs hc, Bi.values_nodup hI _ _, fun r hr => ?_, rfl⟩
  unfold Link.BiL.Holds
  rw [(Link.BiL.step_of fuel hf hI hb hm (.contains l r) ⟨hi, hr⟩ v).1, Bi.values_mem hI, Bi.contains_spec hI hi hr]
  simp

/-- **C61** The generated code: `withRight(r).forEachValue`. -/
theorem C61_generated_right_values_partial (hf : 2 ^ 31 ≤ fuel) (h : Link.BiL.Made many fuel t i) (hmany : i.many = true)
    {r : Int} (h0 : 0 ≤ r) (hs : r < i.span .right) (hi : IsInt r) (hc : i.Covered .right r) :
    ∃ vs, (runM (Link.BiL.step many fuel) t [.withKey .right r, .forEachOf .right .value]).1 = [.ok .unit, .ok (.ints vs)] ∧
      vs.Nodup ∧ (∀ l, IsInt l → (l ∈ vs ↔ Link.BiL.Holds many fuel t l r)) ∧
      vs = (i.assocs.filter fun a => a.right = r).map (·.left) := by
  obtain ⟨s, v, rfl, hI, hb, hm⟩ := Link.BiL.made_inv hf h
  rw [Link.BiL.key_two hf hI hb hm (d := .right) hmany (.inr ⟨_, rfl⟩)]
  refine ⟨_, Bi.walk_values hI (d := .right) hmany h0 hs hc, Bi.values_nodup hI _ _, fun l hl => ?_, rfl⟩
  unfold Link.BiL.Holds
  rw [(Link.BiL.step_of fuel hf hI hb hm (.contains l r) ⟨hl, hi⟩ v).1, Bi.values_mem hI, Bi.contains_spec hI hl hi]
  simp

/-- **C62** The generated code: `count` is the number of associations of the key, and throws without counts or for
a negative key. -/
theorem C62_generated_count_partial (hf : 2 ^ 31 ≤ fuel) (h : Link.BiL.Made many fuel t i) {d : Dir} (hd : i.has d) (k : Int) :
    (runM (Link.BiL.step many fuel) t [.withKey d k, .count d]).1 =
      [.ok .unit, if i.counted = false then .error .illegalState else if k < 0 then .error .indexOutOfBounds
        else .ok (.int (i.assocs.filter fun a => a.key d = k).length)] := by
  obtain ⟨s, v, rfl, hI, hb, hm⟩ := Link.BiL.made_inv hf h
  rw [Link.BiL.key_two hf hI hb hm hd (.inl rfl)]
  exact Bi.count_key hI hd k

/-- **C63** The generated code: a key without associations has no values, if it is below the initial number of keys
or below a key that was put. -/
theorem C63_generated_values_partial (hf : 2 ^ 31 ≤ fuel) (h : Link.BiL.Made many fuel t i) {d : Dir} (hd : i.has d) {k : Int}
    (h0 : 0 ≤ k) (hs : k < i.span d) (hn : ∀ a ∈ i.assocs, a.key d ≠ k) :
    (runM (Link.BiL.step many fuel) t [.withKey d k, .forEachOf d .value]).1 = [.ok .unit, .ok (.ints [])] := by
  obtain ⟨s, v, rfl, hI, hb, hm⟩ := Link.BiL.made_inv hf h
  rw [Link.BiL.key_two hf hI hb hm hd (.inr ⟨_, rfl⟩)]
  have hof : i.of d k = [] := by
    unfold Ideal.of
    rw [List.filter_eq_nil_iff]
    intro a ha; simpa using hn a ha
  have hc : i.Covered d k := by
    intro e he
    unfold Ideal.entriesOf at he
    rw [hof] at he; simp at he
  rw [Bi.walk_values hI hd h0 hs hc]
  unfold Ideal.listOf; rw [hof]; rfl

/-- **C64** The generated code: a guarded put does not throw. -/
theorem C64_generated_put_succeeds_partial (hf : 2 ^ 31 ≤ fuel) (h : Link.BiL.Made many fuel t i) {l r : Int}
    (hg : Guard (.put l r) i) : ∃ e, (Link.BiL.step many fuel (.put l r) t).out = .ok (.int e) := by
  obtain ⟨s, v, rfl, hI, hb, hm⟩ := Link.BiL.made_inv hf h
  rw [(Link.BiL.step_of fuel hf hI hb hm (.put l r) hg v).1]
  have := (Bi.step_spec hI (.put l r) hg).1
  cases hf : i.find l r with
  | none => simp only [Ok, hf] at this; exact ⟨_, this⟩
  | some a => simp only [Ok, hf] at this; exact ⟨_, this⟩

/-- **C59** is false of the generated code too: with capacity 1 the second association is there but cannot be
removed. -/
theorem C59_generated_remove_refuted :
    Link.BiL.results true 20 4 4 1 true [.put 0 0, .put 1 1, .contains 1 1, .remove 1 1, .removeAt 1, .size] =
    [.ok (.int 0), .ok (.int 1), .ok (.bool true), .error .indexOutOfBounds, .error .indexOutOfBounds, .ok (.int 2)] := by
  decide +kernel

/-- The generated constructors make objects, and histories run. -/
example : Link.BiL.results true 20 2 2 5 true [.put 0 0, .put 0 1, .put 3 0, .withKey .left 0, .forEachOf .left .value,
      .withKey .right 0, .forEachOf .right .value, .count .right, .remove 0 0, .forEachOf .right .entry, .size] =
    [.ok (.int 0), .ok (.int 1), .ok (.int 2), .ok .unit, .ok (.ints [1, 0]), .ok .unit, .ok (.ints [3, 0]),
      .ok (.int 2), .ok (.int 0), .ok (.ints [2]), .ok (.int 2)] := by decide +kernel

example : Link.BiL.results false 20 2 2 5 false [.put 0 0, .put 0 1, .put 3 0, .withKey .left 0, .iterator .left .value,
      .next .left .value, .hasNext .left .value, .next .left .value, .hasNext .left .value, .withKey .right 0, .count .left] =
    [.ok (.int 0), .ok (.int 1), .ok (.int 2), .ok .unit, .ok .unit, .ok (.int 1), .ok (.bool true), .ok (.int 0),
      .ok (.bool false), .error .nullPointer, .error .illegalState] := by decide +kernel

/-- `Made` is inhabited. -/
example : ∃ t, Link.BiL.Made true (2 ^ 31) t (start true 2 2 5 true) ∧ Guard (.put 5 6) (start true 2 2 5 true) := by
  cases h : Link.BiL.new true 2 2 5 true (Link.BiL.raw true) with
  | ok u t =>
    refine ⟨t, .new h, by unfold IsInt; omega, by unfold IsInt; omega, fun _ => ⟨?_, by decide⟩⟩
    intro d _
    cases d <;> refine ⟨by decide, by decide, ?_⟩ <;> intro x hx <;> simp [Ideal.entriesOf, Ideal.of, start] at hx
  | err e t =>
    have : (Link.BiL.new true 2 2 5 true (Link.BiL.raw true)).out.isOk = true := by decide +kernel
    rw [h] at this; cases this

end Verif
