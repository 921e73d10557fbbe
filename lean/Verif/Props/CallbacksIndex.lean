import Verif.Proofs.CallbacksIndex
import Verif.Props.Index
set_option linter.unusedSectionVars false
/-! # Property C93: consumers that change the indexed collection they are walking -/
namespace Verif
open Verif.Index Verif.IndexSpec
variable {K V : Type} [Inhabited K] [Inhabited V]

theorem tames_guarded {es : List Int} : ∀ (ops : List (Op K V)) (a : Abs K V) (s : Index K V),
    Tames es a s ops → Guarded a s ops
  | [], _, _, _ => trivial
  | _ :: ops, _, _, h => ⟨h.1.1, tames_guarded ops _ _ h.2⟩

theorem visits_reach {exact : Prop} {k : Kind} {f : Consumer (Out K V) (Op K V)} {es : List Int}
    {seen : List (Out K V)} {s : Index K V} {a : Abs K V} {rest : List Int} {out : List (Out K V)}
    {t : Index K V} {c : Abs K V} (hv : Visits k f es seen s a rest out t c) :
    Reach exact s a → Reach exact t c := by
  induction hv with
  | done => exact id
  | step _ ht _ ih => exact fun h => ih (guarded_reach _ h (tames_guarded _ _ _ ht))

theorem visits_entries {f : Consumer (Out K V) (Op K V)} {es : List Int}
    {seen : List (Out K V)} {s : Index K V} {a : Abs K V} {rest : List Int} {out : List (Out K V)}
    {t : Index K V} {c : Abs K V} (hv : Visits .entries f es seen s a rest out t c) :
    out = seen ++ rest.map .int := by
  induction hv with
  | done => simp
  | step hb _ _ ih => rw [ih, hb]; simp

theorem visits_keys {tight : Prop} (κ : Int → K) {f : Consumer (Out K V) (Op K V)} {es : List Int}
    {seen : List (Out K V)} {s : Index K V} {a : Abs K V} {rest : List Int} {out : List (Out K V)}
    {t : Index K V} {c : Abs K V} (hv : Visits .keys f es seen s a rest out t c) :
    (∃ F, Inv tight s a F) → rest.Nodup → Ahead es a rest → (∀ r ∈ a.rows, r.entry ∈ rest → r.key = κ r.entry) →
    out = seen ++ rest.map (fun e => .key (κ e)) := by
  induction hv with
  | done => simp
  | @step es seen s a e rest out t c b hb ht _ ih =>
    rintro ⟨F, hI⟩ hnd hR hκ
    simp only [List.nodup_cons] at hnd
    have hR1 : Ahead (es ++ [e]) a rest := by
      intro x hx
      have := hR x (List.mem_cons_of_mem _ hx)
      refine ⟨this.1, ?_⟩
      simp only [List.mem_append, List.mem_singleton, not_or]
      exact ⟨this.2, by rintro rfl; exact hnd.1 hx⟩
    obtain ⟨F1, D, c1, -, -, -, c5, c6⟩ := calls_quiet _ s a F hI ht hR1
    have hb' : b = .key (κ e) := by
      obtain ⟨r, hr, rfl⟩ := List.mem_map.1 (hR e (by simp)).1
      have : result (.getKeyAt r.entry) s = .ok (.key r.key) :=
        (step_spec hI (.getKeyAt r.entry) trivial).1 r (.inl hr) rfl
      have hb2 : result (.getKeyAt r.entry) s = .ok b := hb
      rw [this] at hb2
      simp only [Except.ok.injEq] at hb2
      rw [← hb2, hκ r hr (by simp)]
    rw [ih ⟨F1, c1⟩ hnd.2 c5 ?_, hb']
    · simp
    · intro r hr hrest
      obtain ⟨r0, hr0, he⟩ := List.mem_map.1 (hR r.entry (List.mem_cons_of_mem _ hrest)).1
      obtain ⟨v, hv⟩ := c6 r0 hr0 (by rw [he]; exact hrest)
      have := entry_unique c1 hr hv he.symm
      rw [this]; simp only
      exact hκ r0 hr0 (by rw [he]; exact List.mem_cons_of_mem _ hrest)

/-- C93 (partial: for consumers whose calls leave the entries alone that are still to come, `Tame`): the
methods `forEachEntry`, `forEach` and `forEachValue` of any reachable collection, with a consumer that calls
back into the collection, visit the entries that `forEachEntry` lists, in that order: `forEachEntry` hands out
exactly these, `forEach` exactly the keys it would hand out without the calls, and `forEachValue` at each
entry the value it then has.  The collection ends up as the calls say. -/
theorem C93_consumer_partial {exact : Prop} {s : Index K V} {a : Abs K V} (h : Reach exact s a) (k : Kind)
    (f : Consumer (Out K V) (Op K V)) (l : List Int) (hl : result .forEachEntry s = .ok (.ints l))
    (out : List (Out K V)) (t : Index K V) (b : Abs K V) (hv : Visits k f [] [] s a l out t b) :
    (∃ n, ∀ fuel, n ≤ fuel → forEachDo k f fuel s = .ok out t) ∧ Reach exact t b ∧
      (k = .entries → out = l.map .int) ∧
      (k = .keys → ∃ ks, result .forEach s = .ok (.keys ks) ∧ out = ks.map .key) := by
  obtain ⟨F, hI⟩ := reach_inv h
  have hlo : l = order s := by
    have : result .forEachEntry s = .ok (.ints (order s)) := by
      simp only [result, step]; rw [JM.bind_ok (forEachEntry_spec hI)]; rfl
    rw [this] at hl; simpa using hl.symm
  subst hlo
  refine ⟨⟨s.heads.len + s.nexts.len + 1, fun fuel hf => forEachDo_spec hI hv (by omega)⟩, visits_reach hv h, ?_, ?_⟩
  · rintro rfl; simpa using visits_entries hv
  · rintro rfl
    refine ⟨(order s).map s.keys.get, ?_, ?_⟩
    · simp only [result, step]; rw [JM.bind_ok (forEach_spec hI)]; rfl
    · have hnd := (orderFrom_spec hI s.heads.len 0 (by omega) (by omega)).1
      have := visits_keys s.keys.get hv ⟨F, hI⟩ hnd
        (fun x hx => ⟨(order_perm hI).mem_iff.1 hx, by simp⟩) (fun r hr _ => ((hI.rowsOk r (.inl hr)).1).symm)
      rw [this]; simp

/-- The last entry handed out. -/
def lastEntry (seen : List (Out K V)) : Option Int :=
  match seen.getLast? with
  | some (.int e) => some e
  | _ => none

/-- The last key handed out. -/
def lastKey (seen : List (Out K V)) : Option K :=
  match seen.getLast? with
  | some (.key k) => some k
  | _ => none

theorem update_all_visits (g : Int → V) :
    ∀ (rest es : List Int) (seen : List (Out K V)) (s : Index K V) (a : Abs K V),
      ∃ t b, Visits .entries (fun seen => ((lastEntry seen).map fun e => .putValueAt e (g e)).toList) es seen s a rest
        (seen ++ rest.map .int) t b ∧
        b.rows = a.rows.map fun r => if r.entry ∈ rest then { r with val := g r.entry } else r := by
  intro rest
  induction rest with
  | nil => intro es seen s a; exact ⟨s, a, by simpa using Visits.done, by simp⟩
  | cons e rest ih =>
    intro es seen s a
    have hf : ((lastEntry (seen ++ [Out.int e])).map fun e => (Op.putValueAt e (g e) : Op K V)).toList =
        [.putValueAt e (g e)] := by simp [lastEntry]
    obtain ⟨t, b, h1, h2⟩ := ih (es ++ [e]) (seen ++ [.int e]) (final s [.putValueAt e (g e)])
      (ideal a s [.putValueAt e (g e)])
    refine ⟨t, b, ?_, ?_⟩
    · have h3 : seen ++ (e :: rest).map Out.int = (seen ++ [Out.int (K := K) (V := V) e]) ++ rest.map Out.int := by simp
      rw [h3]
      refine .step (b := .int e) rfl ?_ ?_
      · simp only [hf]; exact ⟨⟨trivial, trivial⟩, trivial⟩
      · simp only [hf]; exact h1
    · rw [h2]
      simp only [ideal, after, Abs.setVal, List.map_map]
      apply List.map_congr_left
      intro r _
      simp only [Function.comp]
      by_cases he : r.entry = e
      · simp [he]
      · simp [he]

theorem remove_keys_visits {exact : Prop} (P : K → Bool) :
    ∀ (rest es : List Int) (seen : List (Out K V)) (s : Index K V) (a : Abs K V) (F : List Int),
      Inv exact s a F → rest.Nodup → (∀ e ∈ rest, e ∈ a.live) → ∃ out t b,
        Visits .keys (fun seen => (((lastKey seen).filter P).map .remove).toList) es seen s a rest out t b ∧
        ∀ r, r ∈ b.rows ↔ r ∈ a.rows ∧ (r.entry ∈ rest → ¬ (P r.key ∧ a.eq r.key r.key)) := by
  intro rest
  induction rest with
  | nil => intro es seen s a F _ _ _; exact ⟨_, s, a, Visits.done, by simp⟩
  | cons e rest ih =>
    intro es seen s a F hI hnd hlive
    simp only [List.nodup_cons] at hnd
    obtain ⟨r, hr, rfl⟩ := List.mem_map.1 (hlive e (by simp))
    have hk : result (.getKeyAt r.entry) s = .ok (.key r.key) :=
      (step_spec hI (.getKeyAt r.entry) trivial).1 r (.inl hr) rfl
    have hc := hI.coherent (by intro h0; rw [h0] at hr; simp at hr)
    by_cases hP : P r.key = true
    · have hf : (((lastKey (seen ++ [Out.key (V := V) r.key])).filter P).map (Op.remove (V := V))).toList =
          [.remove r.key] := by simp [lastKey, hP]
      by_cases hq : a.eq r.key r.key = true
      · have hfind := find_of_mem hI hr hq
        obtain ⟨F1, hI1⟩ := (step_spec hI (.remove r.key) trivial).2.2
        have ha : ideal a s [.remove r.key] = { a.drop r.entry with free := r.entry :: a.free } := by
          simp only [ideal, after, hfind]
        have hmem : ∀ x, x ∈ (ideal a s [.remove r.key]).rows ↔ x ∈ a.rows ∧ x.entry ≠ r.entry := by
          intro x; rw [ha]; simp [Abs.drop]
        obtain ⟨out, t, b, h1, h2⟩ := ih (es ++ [r.entry]) (seen ++ [.key r.key]) (final s [.remove r.key])
          (ideal a s [.remove r.key]) F1 hI1 hnd.2 (by
            intro e he
            obtain ⟨x, hx, rfl⟩ := List.mem_map.1 (hlive e (List.mem_cons_of_mem _ he))
            exact List.mem_map.2 ⟨x, (hmem x).2 ⟨hx, by rintro hh; exact hnd.1 (hh ▸ he)⟩, rfl⟩)
        refine ⟨out, t, b, .step hk ?_ ?_, ?_⟩
        · simp only [hf]
          refine ⟨⟨trivial, ?_⟩, trivial⟩
          intro r' hr'
          rw [hfind] at hr'
          simp only [Option.some.injEq] at hr'
          simp [hr']
        · simp only [hf]; exact h1
        · intro x
          rw [h2, hmem]
          have heq : (ideal a s [.remove r.key]).eq = a.eq := by rw [ha]; rfl
          rw [heq]
          constructor
          · rintro ⟨⟨h3, h4⟩, h5⟩
            refine ⟨h3, fun h6 => ?_⟩
            rcases List.mem_cons.1 h6 with h6 | h6
            · exact absurd h6 h4
            · exact h5 h6
          · rintro ⟨h3, h5⟩
            refine ⟨⟨h3, fun h4 => ?_⟩, fun h6 => h5 (List.mem_cons_of_mem _ h6)⟩
            have hx := entry_unique hI h3 hr h4
            subst hx
            exact h5 (by simp) ⟨hP, hq⟩
      · have hfind : a.find r.key = none := by
          rw [find_none]
          intro x hx
          by_contra hx'
          simp only [Bool.not_eq_false] at hx'
          exact hq (hc.trans _ _ _ hx' (hc.symm _ _ hx'))
        obtain ⟨F1, hI1⟩ := (step_spec hI (.remove r.key) trivial).2.2
        have ha : ideal a s [.remove r.key] = a := by simp only [ideal, after, hfind]
        obtain ⟨out, t, b, h1, h2⟩ := ih (es ++ [r.entry]) (seen ++ [.key r.key]) (final s [.remove r.key])
          (ideal a s [.remove r.key]) F1 hI1 hnd.2 (by
            rw [ha]; intro e he; exact hlive e (List.mem_cons_of_mem _ he))
        refine ⟨out, t, b, .step hk ?_ ?_, ?_⟩
        · simp only [hf]
          refine ⟨⟨trivial, ?_⟩, trivial⟩
          intro r' hr'
          rw [hfind] at hr'
          simp at hr'
        · simp only [hf]; exact h1
        · intro x
          rw [h2, ha]
          constructor
          · rintro ⟨h3, h5⟩
            refine ⟨h3, fun h6 => ?_⟩
            rcases List.mem_cons.1 h6 with h6 | h6
            · rw [entry_unique hI h3 hr h6]; exact fun h => hq h.2
            · exact h5 h6
          · rintro ⟨h3, h5⟩
            exact ⟨h3, fun h6 => h5 (List.mem_cons_of_mem _ h6)⟩
    · have hf : (((lastKey (seen ++ [Out.key (V := V) r.key])).filter P).map (Op.remove (V := V))).toList =
          [] := by simp [lastKey, hP]
      obtain ⟨out, t, b, h1, h2⟩ := ih (es ++ [r.entry]) (seen ++ [.key r.key]) s a F hI hnd.2
        (fun e he => hlive e (List.mem_cons_of_mem _ he))
      refine ⟨out, t, b, .step hk ?_ ?_, ?_⟩
      · simp only [hf]; trivial
      · simp only [hf]; exact h1
      · intro x
        rw [h2]
        constructor
        · rintro ⟨h3, h5⟩
          refine ⟨h3, fun h6 => ?_⟩
          rcases List.mem_cons.1 h6 with h6 | h6
          · rw [entry_unique hI h3 hr h6]; exact fun h => hP h.1
          · exact h5 h6
        · rintro ⟨h3, h5⟩
          exact ⟨h3, fun h6 => h5 (List.mem_cons_of_mem _ h6)⟩

/-- C93, updating: `m.forEachEntry(e -> m.putValueAt(e, g(e)))` visits every entry once, and afterwards the
collection holds the same keys at the same entries, each with the value `g` of its entry. -/
theorem C93_update_all {exact : Prop} {s : Index K V} {a : Abs K V} (h : Reach exact s a) (g : Int → V)
    (l : List Int) (hl : result .forEachEntry s = .ok (.ints l)) :
    ∃ n t, (∀ fuel, n ≤ fuel → forEachDo .entries
        (fun seen => ((lastEntry seen).map fun e => .putValueAt e (g e)).toList) fuel s = .ok (l.map .int) t) ∧
      ∃ b, Reach exact t b ∧ b.rows = a.rows.map fun r => { r with val := g r.entry } := by
  obtain ⟨F, hI⟩ := reach_inv h
  have hperm : l.Perm a.live := by
    obtain ⟨l', h1, h2⟩ := (step_spec hI .forEachEntry trivial).1
    rw [show (step .forEachEntry s).out = _ from hl] at h1
    simp only [Except.ok.injEq, Out.ints.injEq] at h1
    rw [h1]; exact h2
  obtain ⟨t, b, h1, h2⟩ := update_all_visits g l [] [] s a
  obtain ⟨⟨n, h3⟩, h4, -⟩ := C93_consumer_partial h .entries _ l hl _ t b h1
  refine ⟨n, t, by simpa using h3, b, h4, ?_⟩
  rw [h2]
  apply List.map_congr_left
  intro r hr
  rw [if_pos (hperm.mem_iff.2 (List.mem_map_of_mem hr))]

/-- C93, removing: `m.forEach(k -> { if (P(k)) m.remove(k); })` is handed the same keys as without the
removals, and afterwards the collection holds exactly the other keys (and those not equal to themselves, which
`remove` cannot find), each at its entry and with its value. -/
theorem C93_remove_keys {exact : Prop} {s : Index K V} {a : Abs K V} (h : Reach exact s a) (P : K → Bool)
    (ks : List K) (hl : result .forEach s = .ok (.keys ks)) :
    ∃ n t, (∀ fuel, n ≤ fuel → forEachDo .keys
        (fun seen => (((lastKey seen).filter P).map .remove).toList) fuel s = .ok (ks.map .key) t) ∧
      ∃ b, Reach exact t b ∧ ∀ r, r ∈ b.rows ↔ r ∈ a.rows ∧ ¬ (P r.key ∧ a.eq r.key r.key) := by
  obtain ⟨F, hI⟩ := reach_inv h
  have hle : result .forEachEntry s = .ok (.ints (order s)) := by
    simp only [result, step]; rw [JM.bind_ok (forEachEntry_spec hI)]; rfl
  obtain ⟨out, t, b, h1, h2⟩ := remove_keys_visits P (order s) [] [] s a F hI
    (orderFrom_spec hI s.heads.len 0 (by omega) (by omega)).1 (fun e he => (order_perm hI).mem_iff.1 he)
  obtain ⟨⟨n, h3⟩, h4, -, h5⟩ := C93_consumer_partial h .keys _ _ hle _ t b h1
  obtain ⟨ks', h6, h7⟩ := h5 rfl
  rw [hl] at h6
  simp only [Except.ok.injEq, Out.keys.injEq] at h6
  subst h6
  subst h7
  refine ⟨n, t, h3, b, h4, fun r => ?_⟩
  rw [h2]
  exact ⟨fun hh => ⟨hh.1, hh.2 ((order_perm hI).mem_iff.2 (List.mem_map_of_mem hh.1))⟩, fun hh => ⟨hh.1, fun _ => hh.2⟩⟩

/-- What a `forEach` method with a consumer hands out after a history on a new map of ints. -/
def indexWalk (ic : Int) (num den : Nat) (ops : List (Op Int Int)) (k : Kind)
    (f : Consumer (Out Int Int) (Op Int Int)) : Except Err (List (Out Int Int)) :=
  match exampleNew ic num den with
  | .error e => .error e
  | .ok s => (forEachDo k f 100 (final s ops)).out

/-- C93 is false if the consumer removes the entry that comes next: the walk goes on from the dead entry, hands
out the default value, and the key 1, which is still in the map, is not handed out. -/
theorem C93_remove_next_refuted :
    indexWalk 4 3 4 [.put 1 5, .put 9 6, .put 17 7] .keys (fun _ => []) = .ok [.key 17, .key 9, .key 1] ∧
    indexWalk 4 3 4 [.put 1 5, .put 9 6, .put 17 7] .keys
      (fun seen => if seen.length = 1 then [.remove 9] else []) = .ok [.key 17, .key 0] := ⟨rfl, rfl⟩

/-- C93 is false if the consumer adds a key: here the key 7, which was there all along, is not handed out,
because the walk stops after as many keys as there were at the start. -/
theorem C93_add_refuted :
    indexWalk 16 3 4 [.put 1 5, .put 4 6, .put 7 7] .keys
      (fun seen => if seen.length = 1 then [.add 2] else []) = .ok [.key 1, .key 2, .key 4] := rfl

/-- C93 is false if the consumer clears the map: the entry after the first is handed out although the map is
empty by then. -/
theorem C93_clear_refuted :
    indexWalk 4 3 4 [.put 1 5, .put 9 6] .keys (fun _ => [.clear]) = .ok [.key 9, .key 0] := rfl

/- Non-vacuity: a consumer that updates values ahead of the walk, removes and reserves what it was handed, and
reads; the hypotheses of `C93_update_all` and `C93_remove_keys` are those of any reachable collection. -/
example : indexWalk 4 3 4 [.put 1 5, .put 9 6, .put 17 7] .values
    (fun seen => if seen.length = 1 then [.put 1 50, .removeAtAndReserve 2, .get 9] else
      if seen.length = 2 then [.remove 9, .freeReservedEntry 2] else []) = .ok [.val 7, .val 6, .val 50] := rfl
example : indexWalk 4 3 4 [.put 1 5, .put 9 6, .put 17 7] .keys
    (fun seen => (((lastKey seen).filter (· > 5)).map .remove).toList) = .ok [.key 17, .key 9, .key 1] := rfl
example : ∃ s, exampleNew 4 3 4 = .ok s ∧ ∃ a,
    Reach True (final s [.put 1 5, .put 9 6, .put 17 7]) a ∧
    ∃ out t b, Visits .values (fun seen => if seen.length = 1 then [.put 1 50, .removeAtAndReserve 2, .get 9] else
      if seen.length = 2 then [.remove 9, .freeReservedEntry 2] else []) [] []
      (final s [.put 1 5, .put 9 6, .put 17 7]) a [2, 1, 0] out t b ∧ out = [.val 7, .val 6, .val 50] ∧
      result .size t = .ok (.int 1) := by
  refine ⟨_, rfl, _, guarded_reach _ (.new (hash := fun k : Int => BitVec.ofInt 32 k) (eq := fun a b => a == b)
    (ic := 4) (num := 3) (den := 4) rfl (fun _ => by decide)) ?_, ?_⟩
  · refine ⟨⟨int_coherent, by decide⟩, ⟨int_coherent, ?_⟩, ⟨int_coherent, ?_⟩, trivial⟩ <;> decide +kernel
  · refine ⟨_, _, _, .step (b := .val 7) rfl ?_ (.step (b := .val 6) rfl ?_ (.step (b := .val 50) rfl ?_ .done)), rfl, rfl⟩
    · refine ⟨⟨⟨int_coherent, by decide +kernel⟩, rfl⟩, ⟨⟨⟨2, 17, 7⟩, ?_, rfl, by decide +kernel⟩,
        List.mem_singleton.2 rfl⟩,
        ⟨trivial, trivial⟩, trivial⟩
      exact List.mem_cons_self
    · refine ⟨⟨trivial, ?_⟩, ⟨?_, trivial⟩, trivial⟩
      · intro r hr
        have : r = ⟨1, 9, 6⟩ := Option.some.inj (hr.symm.trans rfl)
        subst this; decide
      · show (2 : Int) ∈ _
        exact List.mem_cons_self
    · exact trivial

end Verif
