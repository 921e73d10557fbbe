import Verif.Link.Bi8
import Verif.Link.Script
import Verif.Spec.ScriptBi
import Verif.Gen.PairsWalk
/-! C114: the walks over the associations of one key of a two-sided collection, with consumers that keep a state, call
back, look at the answers and throw. -/
set_option linter.unusedSectionVars false
namespace Verif
open ScriptSpec Verif.Bi Verif.BiSpec

namespace Link.BiL
open Verif.Walk Link.ScriptL Link.WalkL
variable {σ : Type} {many : Bool} {fuel : Nat} {t : Bi} {i : Ideal} {d : Dir} {k : Kind}

/-- The generated `forEachEntry` (`entry`) or `forEachValue` (`value`) of the mapping of a side, with at most `n` turns of
its loop and a consumer that is a script for each value. -/
def scriptWalk (many : Bool) (calls : Nat) (c : Int → σ → Script Op Out σ) (d : Dir) (n : Nat) : Kind → JM (Beside σ Bi) (List Unit)
  | .entry => Gen.PairsWalk.Mapping.forEachEntry (lookups many d) d n (consumer (step many calls) c)
  | .value => Gen.PairsWalk.Mapping.forEachValue (lookups many d) d n (consumer (step many calls) c)

/-- The loop of it. -/
def scriptLoop (many : Bool) (calls : Nat) (c : Int → σ → Script Op Out σ) (d : Dir) (n : Nat) (acc : List Unit) :
    Kind → JM (Beside σ Bi) (List Unit)
  | .entry => Gen.PairsWalk.EntryIterator.forEach_loop1 (lookups many d) d (consumer (step many calls) c) n acc
  | .value => Gen.PairsWalk.ValueIterator.forEach_loop1 (lookups many d) d (consumer (step many calls) c) n acc

def hasNextG (many : Bool) (d : Dir) : Kind → JM Bi Bool
  | .entry => Gen.Pairs.EntryIterator.hasNext (lookups many d) d
  | .value => Gen.Pairs.ValueIterator.hasNext (lookups many d) d

def nextG (many : Bool) (d : Dir) : Kind → JM Bi Int
  | .entry => Gen.Pairs.EntryIterator.next (lookups many d) d
  | .value => Gen.Pairs.ValueIterator.next (lookups many d) d

def iteratorG (many : Bool) (d : Dir) : Kind → JM Bi Unit
  | .entry => Gen.Pairs.Mapping.entryIterator (lookups many d) d
  | .value => Gen.Pairs.Mapping.valueIterator (lookups many d) d

theorem loop_succ (calls : Nat) (c : Int → σ → Script Op Out σ) (n : Nat) (acc : List Unit) :
    scriptLoop many calls c d (n + 1) acc k = (do
      if (← lift (hasNextG many d k)) = true then
        scriptLoop many calls c d n (acc ++ [← consumer (step many calls) c (← lift (nextG many d k))]) k
      else pure acc) := by
  cases k <;> rfl

theorem step_hasNext : step many fuel (.hasNext d k) = (do return .bool (← hasNextG many d k)) := by cases k <;> rfl
theorem step_next : step many fuel (.next d k) = (do return .int (← nextG many d k)) := by cases k <;> rfl
theorem step_iterator : step many fuel (.iterator d k) = (do iteratorG many d k; pure .unit) := by cases k <;> rfl

theorem hasNext_state : ∃ b, hasNextG many d k t = .ok b t := by cases k <;> exact ⟨_, rfl⟩

theorem scriptWalk_eq (calls : Nat) (c : Int → σ → Script Op Out σ) (n : Nat) :
    scriptWalk many calls c d n k = (do
      lift (iteratorG many d k)
      let v ← scriptLoop many calls c d n [] k
      pure ([] ++ v)) := by
  cases k <;> rfl

theorem ok_of (hf : 2 ^ 31 ≤ fuel) (h : Made many fuel t i) (o : Op) (hg : Guard o i) :
    Ok o (step many fuel o t).out i ∧ Made many fuel (step many fuel o t).state (after o (step many fuel o t).out i) := by
  refine ⟨?_, h.call o hg⟩
  obtain ⟨s, v, rfl, h1, h2, h3⟩ := made_inv hf h
  exact (legal fuel hf [o] (v := v) h1 h2 h3 hg).1

/-- A walk in progress. -/
structure At (many : Bool) (fuel : Nat) (d : Dir) (k : Kind) (t : Bi) (i : Ideal) : Prop where
  made : Made many fuel t i
  has : i.has d
  rest : (i.cursor d k).rest ≠ none
  covered : i.Covered d (i.cursor d k).key

theorem has_after (o : Op) (r : Except Err Out) (h : i.has d) : (after o r i).has d := by
  cases d
  · trivial
  · show _ = true
    rw [after_many]; exact h

theorem at_call (hf : 2 ^ 31 ≤ fuel) (o : Op) (t : Bi) (i : Ideal) (h : At many fuel d k t i) (hm : pairsMay d k o i) :
    ∃ j, pairsCan o i (step many fuel o t).out j ∧ At many fuel d k (step many fuel o t).state j := by
  obtain ⟨h1, h2⟩ := ok_of hf h.made o hm.1
  obtain ⟨h3, h4⟩ := hm.2 _ h1
  exact ⟨_, ⟨h1, rfl⟩, h2, has_after o _ h.has, h3, h4⟩

theorem out_map {α β : Type} {m : JM Bi α} {f : α → β} {t : Bi} {b : β} (h : ((m >>= fun x => pure (f x)) t).out = .ok b) :
    ∃ a u, m t = .ok a u ∧ f a = b ∧ ((m >>= fun x => pure (f x)) t).state = u := by
  rw [JM.bind_apply] at h ⊢
  cases e : m t with
  | ok a u =>
    rw [e] at h
    injection h with h
    exact ⟨a, u, rfl, h, rfl⟩
  | err e' u => rw [e] at h; cases h

theorem live_nodup (hf : 2 ^ 31 ≤ fuel) (h : Made many fuel t i) : i.live.Nodup := (C59_generated_set_of_pairs_partial hf h).2.1

theorem find_entry : ∀ {l : List Assoc}, (l.map (·.entry)).Nodup → ∀ {a : Assoc}, a ∈ l →
    (l.find? fun x => x.entry = a.entry) = some a
  | b :: l, hn, a, ha => by
    rw [List.map_cons, List.nodup_cons] at hn
    rw [List.find?_cons]
    rcases List.mem_cons.1 ha with rfl | ha
    · simp
    · have : b.entry ≠ a.entry := fun e => hn.1 (e ▸ List.mem_map_of_mem ha)
      simp only [this, decide_false]
      exact find_entry hn.2 ha

theorem script_loop {c : Int → σ → Script Op Out σ} {P : Except Err Unit → σ → Ideal → Prop} {u : σ}
    (hf : 2 ^ 31 ≤ fuel) (hw : Sure (pairsMay d k) pairsCan (pairsMove d k) c P i u) :
    ∀ {t : Bi}, At many fuel d k t i → ∃ r u' j t', (∃ n, ∀ m, n ≤ m → ∀ acc,
      Ended (scriptLoop many fuel c d m acc k ⟨t, u⟩) r ⟨t', u'⟩) ∧ Made many fuel t' j ∧ P r u' j := by
  induction hw with
  | @done i u hm hp =>
    intro t h
    refine ⟨.ok (), u, i, t, ⟨1, fun m hm' acc => ?_⟩, h.made, hp⟩
    obtain ⟨m, rfl⟩ : ∃ n, m = n + 1 := ⟨m - 1, by omega⟩
    obtain ⟨b, hb⟩ := hasNext_state (many := many) (d := d) (k := k) (t := t)
    have h1 := (ok_of hf h.made (.hasNext d k) ⟨h.has, h.rest⟩).1
    rw [step_hasNext, JM.bind_ok hb] at h1
    have hb' : b = false := by
      cases hr : (i.cursor d k).rest with
      | none => exact absurd hr h.rest
      | some l =>
        have h2 : (Except.ok (Out.bool b) : Except Err Out) = _ := h1 l hr
        injection h2 with h2
        injection h2 with h2
        rw [h2]
        cases l with
        | nil => rfl
        | cons e l =>
          exfalso
          have h3 := (ok_of hf h.made (.next d k) ⟨h.has, h.rest⟩).1
          simp only [Ok, hr] at h3
          obtain ⟨a, ha, he, _⟩ := h3
          simp only [pairsMove, hr, Option.map_eq_none_iff, List.find?_eq_none] at hm
          exact hm a ha (by simp [he])
    subst hb'
    refine ⟨acc, ?_⟩
    rw [loop_succ, JM.bind_ok (lift_ok hb u)]; rfl
  | skip hm _ _ =>
    unfold pairsMove at hm
    split at hm
    · rw [Option.map_eq_some_iff] at hm
      obtain ⟨_, _, hm⟩ := hm
      simp at hm
    · cases hm
  | @step i b u v Q hm hs he _ ih =>
    intro t h
    unfold pairsMove at hm
    split at hm
    rotate_left
    · cases hm
    rename_i e l hr
    rw [Option.map_eq_some_iff] at hm
    obtain ⟨a, ha, hm⟩ := hm
    simp only [Prod.mk.injEq, Option.some.injEq] at hm
    obtain ⟨rfl, rfl⟩ := hm
    -- there is a next value
    obtain ⟨b, hb⟩ := hasNext_state (many := many) (d := d) (k := k) (t := t)
    have h1 := (ok_of hf h.made (.hasNext d k) ⟨h.has, h.rest⟩).1
    rw [step_hasNext, JM.bind_ok hb] at h1
    have h2 : (Except.ok (Out.bool b) : Except Err Out) = _ := h1 _ hr
    injection h2 with h2
    injection h2 with h2
    have h2 : b = true := h2
    subst h2
    -- it is handed out
    obtain ⟨h3, h4⟩ := ok_of hf h.made (.next d k) ⟨h.has, h.rest⟩
    have h3' := h3
    simp only [Ok, hr] at h3'
    obtain ⟨a', ha', hae, hak, hout, _⟩ := h3'
    have hout := hout h.covered
    have := find_entry (live_nodup hf h.made) ha'
    rw [hae] at this
    obtain rfl : a' = a := Option.some.inj (this.symm.trans ha)
    rw [step_next] at hout
    obtain ⟨x, t1, hx, hx', hx''⟩ := out_map hout
    injection hx' with hx'
    rw [← step_next (fuel := fuel)] at hout hx''
    rw [hout, hx''] at h4
    simp only [after, hr] at h4
    have hAt : At many fuel d k t1 (i.setCursor d k ⟨(i.cursor d k).key, some l⟩) :=
      ⟨h4, by cases d; trivial; exact h.has, by simp [Ideal.setCursor], by
        have e1 : (i.setCursor d k ⟨(i.cursor d k).key, some l⟩).cursor d k = ⟨(i.cursor d k).key, some l⟩ := by
          simp [Ideal.setCursor]
        rw [e1]; exact h.covered⟩
    obtain ⟨r, u', t', j, p1, p2, p3⟩ := play_spec (R := At many fuel d k) (step := step many fuel)
      (fun o t i h hm => at_call hf o t i h hm) (c (a'.show d k) u) t1 _ u hAt hs
    have unroll : ∀ n acc, scriptLoop many fuel c d (n + 1) acc k ⟨t, u⟩ =
        proceed r (scriptLoop many fuel c d n (acc ++ [()]) k ⟨t', u'⟩) ⟨t', u'⟩ := by
      intro n acc
      rw [loop_succ, JM.bind_ok (lift_ok hb u), if_pos rfl]
      rw [JM.bind_ok (lift_ok hx u), hx', consumer_cases p1]
    cases r with
    | error x =>
      refine ⟨.error x, u', j, t', ⟨1, fun m hm' acc => ?_⟩, p2.made, he _ _ _ p3⟩
      obtain ⟨m, rfl⟩ : ∃ n, m = n + 1 := ⟨m - 1, by omega⟩
      rw [unroll]; rfl
    | ok x =>
      obtain ⟨r2, u2, j2, t2, ⟨n, q1⟩, q2, q3⟩ := ih u' j p3 p2
      refine ⟨r2, u2, j2, t2, ⟨n + 1, fun m hm' acc => ?_⟩, q2, q3⟩
      obtain ⟨m, rfl⟩ : ∃ n, m = n + 1 := ⟨m - 1, by omega⟩
      rw [unroll]
      exact q1 m (by omega) _

theorem begin_at (hf : 2 ^ 31 ≤ fuel) (h : Made many fuel t i) (hd : i.has d) (hc : i.Covered d (i.key d))
    (hk : k = .value → 0 ≤ i.key d ∧ i.key d < i.span d) :
    ∃ t1, iteratorG many d k t = .ok () t1 ∧ At many fuel d k t1 (pairsBegin d k i) := by
  obtain ⟨h3, h4⟩ := ok_of hf h (.iterator d k) hd
  have hout : (step many fuel (.iterator d k) t).out = .ok .unit := by
    cases k
    · exact h3
    · exact h3.1 (hk rfl).1 (hk rfl).2
  have hout' := hout
  rw [step_iterator] at hout'
  obtain ⟨x, t1, hx, -, hx''⟩ := out_map (m := iteratorG many d k) (f := fun _ => Out.unit) hout'
  have hx'' : (step many fuel (.iterator d k) t).state = t1 := by rw [step_iterator]; exact hx''
  rw [hout, hx''] at h4
  have e1 : (pairsBegin d k i).cursor d k = ⟨i.key d, some (i.entriesOf d (i.key d))⟩ := by
    simp [pairsBegin, Ideal.setCursor]
  exact ⟨t1, hx, h4, by cases d; trivial; exact hd, by rw [e1]; simp, by rw [e1]; exact hc⟩

end Link.BiL

/-- **C114** The generated `forEachEntry` and `forEachValue` of the mapping of either side, set to a key of its span that
the chains reach, with a consumer that may do anything that respects `pairsMay`: the walk ends as it is sure to over
the ideal collection, with the consumer's state and the exception it says, and the collection then is what the ideal says
it is: every guarded history of further calls gives the ideal results. -/
theorem C114_generated_walk_partial {σ : Type} {many : Bool} {fuel : Nat} (hf : 2 ^ 31 ≤ fuel) {t : Bi} {i : Ideal}
    (h : Link.BiL.Made many fuel t i) {d : Dir} {k : Kind} (hd : i.has d) (hc : i.Covered d (i.key d))
    (hk : k = .value → 0 ≤ i.key d ∧ i.key d < i.span d)
    (c : Int → σ → Script Op Out σ) (u : σ) (P : Except Err Unit → σ → Ideal → Prop)
    (hw : Sure (pairsMay d k) pairsCan (pairsMove d k) c P (pairsBegin d k i) u) :
    ∃ r u' j t', P r u' j ∧
      (∃ n, ∀ turns, n ≤ turns → Ended (Link.BiL.scriptWalk many fuel c d turns k ⟨t, u⟩) r ⟨t', u'⟩) ∧
      Link.BiL.Made many fuel t' j ∧ ∀ more, Legal j more (runM (Link.BiL.step many fuel) t' more).1 := by
  obtain ⟨t1, h1, h2⟩ := Link.BiL.begin_at hf h hd hc hk
  obtain ⟨r, u', j, t', ⟨n, p1⟩, p2, p3⟩ := Link.BiL.script_loop hf hw h2
  refine ⟨r, u', j, t', p3, ⟨n, fun m hm => ?_⟩, p2, fun more => ?_⟩
  · have p1 := p1 m hm []
    rw [Link.BiL.scriptWalk_eq, JM.bind_ok (Link.WalkL.lift_ok h1 u)]
    cases r with
    | ok x =>
      obtain ⟨b, hb⟩ := p1
      exact ⟨[] ++ b, by rw [JM.bind_ok hb]; rfl⟩
    | error x =>
      have p1 : Link.BiL.scriptLoop many fuel c d m [] k ⟨t1, u⟩ = .err x ⟨t', u'⟩ := p1
      show _ = Res.err _ _
      rw [JM.bind_apply, p1]
  · obtain ⟨s, v, rfl, q1, q2, q3⟩ := Link.BiL.made_inv hf p2
    exact Link.BiL.legal fuel hf more q1 q2 q3

end Verif
