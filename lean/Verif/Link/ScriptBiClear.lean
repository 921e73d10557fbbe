import Verif.Link.ScriptBi
/-! C114: the walk whose consumer removes what it is handed, and examples. -/
set_option linter.unusedSectionVars false
namespace Verif
open ScriptSpec Verif.Bi Verif.BiSpec

/-- The call that removes what a walk over the associations of `key` handed out: by entry, or by the two keys. -/
def clearing (d : Dir) (k : Kind) (key v : Int) : Op :=
  match k, d with
  | .entry, _ => .removeAt v
  | .value, .left => .remove key v
  | .value, .right => .remove v key

/-- The consumer: it removes what it is handed, and notes it.  If the call throws, it throws. -/
def clears (d : Dir) (k : Kind) (key v : Int) (u : List Int) : Script Op Out (List Int) :=
  .call (clearing d k key v) fun r => match r with
    | .ok _ => .done (u ++ [v])
    | .error e => .fail e u

namespace Link.BiL
variable {many : Bool} {fuel : Nat} {t : Bi} {i : Ideal} {d : Dir} {k : Kind}

/-- In the middle of such a walk: `L` are the associations of the key still to come. -/
structure Clearing (i0 : Ideal) (d : Dir) (k : Kind) (key : Int) (L : List Assoc) (j : Ideal) : Prop where
  cur : j.cursor d k = ⟨key, some (L.map (·.entry))⟩
  of : j.of d key = L
  others : j.assocs.filter (fun a => ¬ a.key d = key) = i0.assocs.filter fun a => ¬ a.key d = key
  has : j.has d
  live : j.live.Nodup
  pairs : (j.assocs.map fun a => (a.left, a.right)).Nodup
  small : ∀ a ∈ L, ∀ d', j.has d' → a.entry < j.room d'
  ints : ∀ a ∈ L, IsInt a.left ∧ IsInt a.right

theorem find_pair : ∀ {l : List Assoc}, (l.map fun a => (a.left, a.right)).Nodup → ∀ {a : Assoc}, a ∈ l →
    (l.find? fun x => x.left = a.left ∧ x.right = a.right) = some a
  | b :: l, hn, a, ha => by
    rw [List.map_cons, List.nodup_cons] at hn
    rw [List.find?_cons]
    rcases List.mem_cons.1 ha with rfl | ha
    · simp
    · have : ¬ (b.left = a.left ∧ b.right = a.right) := fun e =>
        hn.1 (by rw [e.1, e.2]; exact List.mem_map_of_mem (f := fun a : Assoc => (a.left, a.right)) ha)
      simp only [this, decide_false]
      exact find_pair hn.2 ha

/-- The call removes the association. -/
theorem clearing_spec {key : Int} {L : List Assoc} {a : Assoc} {j : Ideal} (ha : a ∈ j.assocs) (hk : a.key d = key)
    (hl : j.live.Nodup) (hp : (j.assocs.map fun a => (a.left, a.right)).Nodup)
    (hs : ∀ d', j.has d' → a.entry < j.room d') (hi : IsInt a.left ∧ IsInt a.right) :
    Guard (clearing d k key (a.show d k)) j ∧ ∀ r, Ok (clearing d k key (a.show d k)) r j →
      r = .ok (.int a.entry) ∧
        after (clearing d k key (a.show d k)) r j = { j.drop a.entry with free := a.entry :: j.free } := by
  have hrem : Removable j a := by
    intro d' hd' e he
    have : a.entry ∈ j.entriesOf d' (a.key d') := by
      unfold Ideal.entriesOf Ideal.of
      exact List.mem_map_of_mem (by simp [List.mem_filter, ha])
    rw [he] at this
    rw [← List.mem_singleton.1 this]
    exact hs d' hd'
  have hfind : j.find a.left a.right = some a := find_pair hp ha
  cases k
  · refine ⟨⟨a, ha, rfl, hrem⟩, fun r hr => ⟨?_, ?_⟩⟩
    · simpa [clearing, Ok, Assoc.show] using hr
    · cases d <;> rfl
  · have h1 : clearing d .value key (a.show d .value) = .remove a.left a.right := by
      cases d <;> simp [clearing, Assoc.show, ← hk, Assoc.key]
    rw [h1]
    refine ⟨⟨hi.1, hi.2, fun b hb => ?_⟩, fun r hr => ⟨?_, ?_⟩⟩
    · rw [hfind] at hb
      rw [← Option.some.inj hb]; exact hrem
    · simpa [Ok, hfind] using hr
    · simp only [after, hfind]

theorem clear_sure (i0 : Ideal) (d : Dir) (k : Kind) (key : Int) : ∀ (L : List Assoc) (j : Ideal) (u : List Int),
    Clearing i0 d k key L j → Sure (pairsMay d k) pairsCan (pairsMove d k) (clears d k key)
      (fun r u' j' => r = .ok () ∧ u' = u ++ L.map (Assoc.show d k) ∧
        j'.assocs = i0.assocs.filter fun a => ¬ a.key d = key) j u
  | [], j, u, h => by
    refine .done ?_ ⟨rfl, by simp, ?_⟩
    · unfold pairsMove
      rw [h.cur]; rfl
    · rw [← h.others]
      symm
      rw [List.filter_eq_self]
      intro a ha
      have := h.of
      unfold Ideal.of at this
      rw [List.filter_eq_nil_iff] at this
      simpa using this a ha
  | a :: L, j, u, h => by
    have hof := h.of
    have ha : a ∈ j.assocs ∧ a.key d = key := by
      have : a ∈ j.of d key := by rw [hof]; simp
      simpa [Ideal.of, List.mem_filter] using this
    have hsub : ∀ b ∈ L, b.entry ≠ a.entry := by
      intro b hb e
      have h1 : (j.entriesOf d key).Nodup := h.live.sublist ((List.filter_sublist).map _)
      unfold Ideal.entriesOf at h1
      rw [hof, List.map_cons, List.nodup_cons] at h1
      exact h1.1 (e ▸ List.mem_map_of_mem hb)
    have hmove : pairsMove d k j = some (some (a.show d k), j.setCursor d k ⟨key, some (L.map (·.entry))⟩) := by
      unfold pairsMove
      rw [h.cur]
      show Option.map _ (j.assocs.find? fun x => x.entry = a.entry) = _
      rw [find_entry h.live ha.1]; rfl
    have hspec := clearing_spec (d := d) (k := k) (key := key) (L := L) (a := a)
      (j := j.setCursor d k ⟨key, some (L.map (·.entry))⟩) ha.1 ha.2 h.live h.pairs
      (fun d' hd' => h.small a (by simp) d' hd') (h.ints a (by simp))
    have hnext : Clearing i0 d k key L
        { (j.setCursor d k ⟨key, some (L.map (·.entry))⟩).drop a.entry with
          free := a.entry :: (j.setCursor d k ⟨key, some (L.map (·.entry))⟩).free } := by
      have hf : L.filter (fun b => b.entry ≠ a.entry) = L := by
        rw [List.filter_eq_self]; intro b hb; simpa using hsub b hb
      refine ⟨?_, ?_, ?_, ?_, ?_, ?_, ?_, ?_⟩
      · show Ideal.Cursor.drop a.entry ((j.setCursor d k ⟨key, some (L.map (·.entry))⟩).cursor d k) = _
        have e1 : (j.setCursor d k ⟨key, some (L.map (·.entry))⟩).cursor d k = ⟨key, some (L.map (·.entry))⟩ := by
          simp [Ideal.setCursor]
        rw [e1]
        unfold Ideal.Cursor.drop
        cases L with
        | nil => rfl
        | cons b L =>
          have hb := hsub b (by simp)
          simp only [List.map_cons, if_neg hb]
          congr 3
          rw [List.filter_eq_self]
          intro x hx
          obtain ⟨b', hb', rfl⟩ := List.mem_map.1 hx
          simpa using hsub b' (by simp [hb'])
      · show ((j.assocs.filter fun b => b.entry ≠ a.entry).filter fun b => b.key d = key) = L
        rw [List.filter_filter]
        have : (j.of d key).filter (fun b => b.entry ≠ a.entry) = L := by
          rw [hof, List.filter_cons]; simpa using hf
        unfold Ideal.of at this
        rw [List.filter_filter] at this
        rw [← this]
        congr 1; funext b; simp [Bool.and_comm]
      · show ((j.assocs.filter fun b => b.entry ≠ a.entry).filter fun b => ¬ b.key d = key) = _
        rw [← h.others, List.filter_filter]
        apply List.filter_congr
        intro b hb
        by_cases hbk : b.key d = key
        · simp [hbk]
        · have : b.entry ≠ a.entry := by
            intro e
            have h1 := find_entry h.live hb
            have h2 := find_entry h.live ha.1
            rw [e] at h1
            exact hbk (Option.some.inj (h1.symm.trans h2) ▸ ha.2)
          simp [this, hbk]
      · have := h.has
        cases d <;> exact this
      · exact h.live.sublist ((List.filter_sublist).map _)
      · exact h.pairs.sublist ((List.filter_sublist).map _)
      · intro b hb d' hd'
        have hd'' : j.has d' := by cases d' <;> exact hd'
        exact h.small b (by simp [hb]) d' hd''
      · intro b hb; exact h.ints b (by simp [hb])
    refine .step (fun r u' j' => r = .ok () ∧ u' = u ++ [a.show d k] ∧ Clearing i0 d k key L j') hmove
      ⟨⟨hspec.1, fun r hr => ?_⟩, fun r j' hr => ?_⟩ (by simp) ?_
    · rw [(hspec.2 r hr).2]
      refine ⟨by rw [hnext.cur]; simp, ?_⟩
      rw [hnext.cur]
      intro e he
      unfold Ideal.entriesOf at he
      rw [hnext.of] at he
      obtain ⟨b, rfl⟩ : ∃ b, L = [b] := by
        cases L with
        | nil => simp at he
        | cons b L => cases L with
          | nil => exact ⟨b, rfl⟩
          | cons _ _ => simp at he
      simp only [List.map_cons, List.map_nil, List.cons.injEq, and_true] at he
      subst he
      exact hnext.small b (by simp) d hnext.has
    · obtain ⟨hr, rfl⟩ := hr
      obtain ⟨h1, h2⟩ := hspec.2 r hr
      rw [h2]
      subst h1
      exact ⟨rfl, rfl, hnext⟩
    · rintro u' j' ⟨-, rfl, hc⟩
      have := clear_sure i0 d k key L j' (u ++ [a.show d k]) hc
      simpa using this

end Link.BiL

/-- **C114** A consumer that removes what it is handed, on a key whose entries are within reach: the walk hands out each
association of the key once, most recent first, and removes exactly these. -/
theorem C114_generated_clear_key_partial {many : Bool} {fuel : Nat} (hf : 2 ^ 31 ≤ fuel) {t : Bi} {i : Ideal}
    (h : Link.BiL.Made many fuel t i) {d : Dir} {k : Kind} (hd : i.has d)
    (hk : k = .value → 0 ≤ i.key d ∧ i.key d < i.span d)
    (hs : ∀ a ∈ i.of d (i.key d), ∀ d', i.has d' → a.entry < i.room d') :
    ∃ t' j, (∃ n, ∀ turns, n ≤ turns →
        Ended (Link.BiL.scriptWalk many fuel (clears d k (i.key d)) d turns k ⟨t, []⟩) (.ok ()) ⟨t', i.listOf d k (i.key d)⟩) ∧
      j.assocs = i.assocs.filter (fun a => ¬ a.key d = i.key d) ∧
      Link.BiL.Made many fuel t' j ∧ ∀ more, Legal j more (runM (Link.BiL.step many fuel) t' more).1 := by
  have hc : i.Covered d (i.key d) := by
    intro e he
    unfold Ideal.entriesOf at he
    obtain ⟨a, ha⟩ : ∃ a, i.of d (i.key d) = [a] := by
      cases hL : i.of d (i.key d) with
      | nil => rw [hL] at he; simp at he
      | cons b L => cases L with
        | nil => exact ⟨b, rfl⟩
        | cons _ _ => rw [hL] at he; simp at he
    rw [ha] at he
    simp only [List.map_cons, List.map_nil, List.cons.injEq, and_true] at he
    subst he
    exact hs a (by rw [ha]; simp) d hd
  have hset := C59_generated_set_of_pairs_partial hf h
  obtain ⟨s, v, hv, hI, -, -⟩ := Link.BiL.made_inv hf h
  have hclear : Link.BiL.Clearing i d k (i.key d) (i.of d (i.key d)) (pairsBegin d k i) := by
    refine ⟨by simp [pairsBegin, Ideal.setCursor, Ideal.entriesOf], rfl, rfl, by cases d <;> exact hd, hset.2.1, hset.1,
      fun a ha d' hd' => hs a ha d' (by cases d' <;> exact hd'), fun a ha => ?_⟩
    exact hI.ints a (.inl (List.mem_filter.1 ha).1)
  obtain ⟨r, u', j, t', ⟨rfl, rfl, h3⟩, h4, h5, h6⟩ := C114_generated_walk_partial hf h hd hc hk _ [] _
    (Link.BiL.clear_sure i d k (i.key d) _ _ [] hclear)
  exact ⟨t', j, by simpa [Ideal.listOf] using h4, h3, h5, h6⟩

/-- The relation of the examples, made by the generated class: five pairs, and the mapping set to left key 0. -/
def Link.BiL.fivePairs (fuel : Nat) : Res Bi Unit :=
  match Link.BiL.new true 4 4 6 true (Link.BiL.raw true) with
  | .ok _ t => .ok () (runM (Link.BiL.step true fuel) t [.put 0 0, .put 1 0, .put 0 1, .put 0 2, .put 2 2, .withKey .left 0]).2
  | .err e t => .err e t

/-- What these calls and their results say the collection is. -/
def Link.BiL.fiveIdeal : Ideal :=
  ([(.put 0 0, .int 0), (.put 1 0, .int 1), (.put 0 1, .int 2), (.put 0 2, .int 3), (.put 2 2, .int 4),
    (.withKey .left 0, .unit)] : List (Op × Out)).foldl (fun i x => after x.1 (.ok x.2) i) (start true 4 4 6 true)

/- This collection meets the hypotheses of both theorems. -/
example : Link.BiL.fiveIdeal.listOf .left .value 0 = [2, 1, 0] ∧ Link.BiL.fiveIdeal.key .left = 0 ∧
    0 < Link.BiL.fiveIdeal.span .left ∧ (∀ a ∈ Link.BiL.fiveIdeal.of .left 0, ∀ d, a.entry < Link.BiL.fiveIdeal.room d) ∧
    Sure (pairsMay .left .value) pairsCan (pairsMove .left .value) (clears .left .value 0)
      (fun r u j => r = .ok () ∧ u = [2, 1, 0] ∧ j.assocs = [⟨4, 2, 2⟩, ⟨1, 1, 0⟩])
      (pairsBegin .left .value Link.BiL.fiveIdeal) [] := by
  have hs : ∀ a ∈ Link.BiL.fiveIdeal.of .left 0, ∀ d, a.entry < Link.BiL.fiveIdeal.room d := by
    intro a ha d
    have : a ∈ ([⟨3, 0, 2⟩, ⟨2, 0, 1⟩, ⟨0, 0, 0⟩] : List Assoc) := ha
    simp only [List.mem_cons, List.not_mem_nil, or_false] at this
    rcases this with rfl | rfl | rfl <;> cases d <;> decide
  have h := Link.BiL.clear_sure Link.BiL.fiveIdeal .left .value 0 _ (pairsBegin .left .value Link.BiL.fiveIdeal) []
    ⟨rfl, rfl, rfl, trivial, by decide, by decide, fun a ha d _ => hs a ha d, fun a ha => by
      have : a ∈ ([⟨3, 0, 2⟩, ⟨2, 0, 1⟩, ⟨0, 0, 0⟩] : List Assoc) := ha
      simp only [List.mem_cons, List.not_mem_nil, or_false] at this
      rcases this with rfl | rfl | rfl <;> simp [IsInt]⟩
  exact ⟨by decide, rfl, by decide, hs, h⟩

/- The right keys of left key 0 are removed, and two pairs remain. -/
example : (match Link.BiL.scriptWalk true 40 (clears .left .value 0) .left 40 .value ⟨(Link.BiL.fivePairs 40).state, []⟩ with
    | .ok _ t => some (t.ext, (runM (Link.BiL.step true 40) t.obj [.size, .contains 0 1, .contains 1 0, .contains 2 2,
        .forEachOf .left .value]).1)
    | _ => none) = some ([2, 1, 0], [.ok (.int 2), .ok (.bool false), .ok (.bool true), .ok (.bool true), .ok (.ints [])]) := by
  decide +kernel

/-- A consumer of right keys: it asks whether left key 1 has the right key too; if so it throws, else it puts the pair. -/
def sharing (v : Int) (u : Nat) : Script Op Out Nat :=
  .call (.contains 1 v) fun r => match r with
    | .ok (.bool true) => .fail .illegalState u
    | _ => .call (.put 1 v) fun _ => .done (u + 1)

/- It puts 1-2 and 1-1, and throws at 0. -/
example : (match Link.BiL.scriptWalk true 40 sharing .left 40 .value ⟨(Link.BiL.fivePairs 40).state, 0⟩ with
    | .err e t => some (e, t.ext, (runM (Link.BiL.step true 40) t.obj [.size, .withKey .left 1, .forEachOf .left .value]).1)
    | _ => none) = some (.illegalState, 2, [.ok (.int 7), .ok .unit, .ok (.ints [1, 2, 0])]) := by
  decide +kernel

/-- C114 is false of a consumer that removes the association that is next: entry 2, gone by then, is handed out, and
entry 0 is not though it is still there. -/
theorem C114_generated_walk_refuted :
    (match Link.BiL.scriptWalk true 40 (fun v (u : List Int) => if v = 3 then .call (.removeAt 2) fun _ => .done (u ++ [v])
        else .done (u ++ [v])) .left 40 .entry ⟨(Link.BiL.fivePairs 40).state, []⟩ with
    | .ok _ t => some (t.ext, (runM (Link.BiL.step true 40) t.obj [.contains 0 1, .forEachOf .left .entry]).1)
    | _ => none) = some ([3, 2], [.ok (.bool false), .ok (.ints [3, 0])]) := by
  decide +kernel

end Verif
