import Verif.Link.ScriptBiClear
import Verif.Link.ScriptIndex
/-! C115: the walk over all entries of a two-sided collection, with consumers that keep a state, call back, look at the
answers and throw. -/
set_option linter.unusedSectionVars false
namespace Verif
open ScriptSpec Verif.Bi Verif.BiSpec

namespace Bi
variable {s : Bi} {i j : Ideal}

theorem shrunk_rows {K V : Type} [Inhabited K] [Inhabited V] {m m' : Index K V} {a b c : IndexSpec.Abs K V}
    (h : Index.Shrunk m m' a b) (e : b.rows = c.rows) : Index.Shrunk m m' a c := by
  have el : b.live = c.live := by unfold IndexSpec.Abs.live; rw [e]
  obtain ⟨h1, h2, h3, h4⟩ := h
  exact ⟨h1, h2, e ▸ h3, el ▸ h4⟩

theorem index_shrunk (h : Inv s i) (q : Index.Op (BitVec 64) Unit) (hq : IndexSpec.Guard q (toAbs i))
    (hk : IndexSpec.KeepsNext none q (toAbs i)) {m : LIx} (hm : m = (Index.step q s.mappings).state)
    (hr : (IndexSpec.after q (Index.step q s.mappings).out (toAbs i)).rows = (toAbs j).rows) :
    Index.Shrunk s.mappings m (toAbs i) (toAbs j) := by
  subst hm
  exact shrunk_rows (Index.step_shrunk h.idx q hq hk).1 hr

theorem same_shrunk (h : Inv s i) {m : LIx} (hm : m = s.mappings) (hr : (toAbs i).rows = (toAbs j).rows) :
    Index.Shrunk s.mappings m (toAbs i) (toAbs j) := by
  subst hm
  exact shrunk_rows (Index.shrunk_refl h.idx) hr

theorem edit_mappings {l r e x a : Int} {m : JM LIx Unit} {s s' : Bi}
    (h : (do removeLeft l e; removeRight r e; onMappings m; pure x : JM Bi Int) s = .ok a s') :
    s'.mappings = (m s.mappings).state := by
  obtain ⟨_, s1, h1, h⟩ := jm_bind_inv h
  obtain ⟨_, s2, h2, h⟩ := jm_bind_inv h
  obtain ⟨_, s3, h3, h⟩ := jm_bind_inv h
  injection h with _ h
  subst h
  have e1 : s1.mappings = s.mappings := by
    have := (Link.BiL.onSide_mappings .left (Side.removeEntry l e) s).1
    unfold removeLeft at h1
    rw [h1] at this; exact this
  have e2 : s2.mappings = s1.mappings := by
    have := Link.BiL.removeRight_mappings r e s1
    rw [h2] at this; exact this
  unfold onMappings at h3
  simp only at h3
  rw [e2, e1] at h3
  cases hm : m s.mappings with
  | ok b t => rw [hm] at h3; injection h3 with _ h3; rw [← h3]; rfl
  | err z t => rw [hm] at h3; cases h3

theorem rows_removeAt {a : Assoc} (ha : a ∈ i.assocs) {r : Except Err (Index.Out (BitVec 64) Unit)} {F : List Int} :
    (IndexSpec.after (.removeAt a.entry) r (toAbs i)).rows = (toAbs { i.drop a.entry with free := F }).rows := by
  have hl : a.entry ∈ (toAbs i).live := by rw [live_toAbs]; exact List.mem_map_of_mem ha
  show (if a.entry ∈ (toAbs i).live then _ else _ : LAbs).rows = _
  rw [if_pos hl]
  show (IndexSpec.Abs.drop (toAbs i) a.entry).rows = _
  rw [← toAbs_drop]; rfl

theorem reserve_mappings {e : Int} {s s' : Bi} {u : Unit} (h : removeAtAndReserve e s = .ok u s') :
    s'.mappings = (Index.removeAtAndReserve e s.mappings).state := by
  unfold removeAtAndReserve at h
  obtain ⟨k, s0, h0, h⟩ := jm_bind_inv h
  obtain ⟨_, s1, h1, h⟩ := jm_bind_inv h
  obtain ⟨_, s2, h2, h3⟩ := jm_bind_inv h
  have e0 : s0 = s := by
    have := keyAt_state (s := s) e
    rw [h0] at this; exact this
  subst e0
  have e2 : s2.mappings = s1.mappings := by
    have := (Link.BiL.onSide_mappings .left (Side.removeEntry (Pack.unpackHiInt k).toInt e) s1).1
    unfold removeLeft at h2
    rw [h2] at this; exact this
  have e3 : s'.mappings = s2.mappings := by
    have := Link.BiL.removeRight_mappings (Pack.unpackLoInt k).toInt e s2
    rw [h3] at this; exact this
  rw [e3, e2]
  unfold onMappings at h1
  simp only at h1
  cases hm : Index.removeAtAndReserve e s0.mappings with
  | ok b t => rw [hm] at h1; injection h1 with _ h1; rw [← h1]; rfl
  | err z t => rw [hm] at h1; cases h1

theorem state_map {α β τ : Type} (m : JM τ α) (f : α → β) (t : τ) : ((m >>= fun x => pure (f x)) t).state = (m t).state := by
  rw [JM.bind_apply]; cases m t <;> rfl

open Link

theorem same_side {m : LIx} {d : Dir} {α : Type} {x : JM Side α} : Keeps (fun t : Bi => t.mappings = m) (onSide d x) := fun s h =>
  (BiL.onSide_mappings d x s).1.trans h

theorem same_setCur {m : LIx} {d : Dir} (k : Kind) (f : Bi → Cur) :
    Keeps (fun t : Bi => t.mappings = m) (modify fun t => setCur d k t (f t)) :=
  .modify fun s h => by rw [mappings_setCur]; exact h

theorem same_iterReset {m : LIx} {d : Dir} (k : Kind) : Keeps (fun t : Bi => t.mappings = m) (iterReset d k) := by
  unfold iterReset
  refine .bind .get fun t => ?_
  cases k
  · dsimp only
    split
    · exact .bind same_side fun _ => same_setCur _ _
    · exact .bind (.pure _) fun _ => same_setCur _ _
  · exact .bind same_side fun _ => same_setCur _ _

theorem same_iterator {m : LIx} {d : Dir} (k : Kind) : Keeps (fun t : Bi => t.mappings = m) (iterator d k) :=
  .bind (same_setCur _ _) fun _ => same_iterReset k

theorem same_hasNext {m : LIx} {d : Dir} (k : Kind) : Keeps (fun t : Bi => t.mappings = m) (hasNext d k) :=
  .bind .get fun _ => .pure _

theorem same_next {m : LIx} {d : Dir} (k : Kind) : Keeps (fun t : Bi => t.mappings = m) (next d k) := by
  unfold next
  refine .bind .get fun t => ?_
  have tail : ∀ (x e : Int), Keeps (fun t : Bi => t.mappings = m) (do
      let n ← onSide d (rd Side.nexts e)
      modify fun t => setCur d k t { cur d k t with entry := n }
      pure x) := fun x e => .bind same_side fun _ => .bind (same_setCur _ _) fun _ => .pure _
  cases k
  · exact .bind (.pure _) fun _ => tail _ _
  · exact .bind (.same fun s => BiL.lookupFunc_state _ _ s) fun _ => tail _ _

theorem same_iterAll {m : LIx} {d : Dir} (k : Kind) : ∀ n, Keeps (fun t : Bi => t.mappings = m) (iterAll d k n)
  | 0 => .throw _
  | n + 1 => by
    unfold iterAll
    exact .bind (same_hasNext k) fun _ => .ite (.bind (same_next k) fun _ => .bind (same_iterAll k n) fun _ => .pure _) (.pure _)

/-- A call that adds no association leaves the chains of the set of mappings as they are, apart from what it removes. -/
theorem step_shrunk (h : Inv s i) (o : Op) (hg : Guard o i) (hput : ∀ l r, o = .put l r → (i.find l r).isSome) :
    Index.Shrunk s.mappings (step o s).state.mappings (toAbs i) (toAbs (after o (step o s).out i)) := by
  have reads : Keeps (fun t : Bi => t.mappings = s.mappings) (step o) →
      (toAbs i).rows = (toAbs (after o (step o s).out i)).rows →
      Index.Shrunk s.mappings (step o s).state.mappings (toAbs i) (toAbs (after o (step o s).out i)) :=
    fun hk hr => same_shrunk h (hk s rfl) hr
  cases o with
  | put l r =>
    obtain ⟨a, hf⟩ := Option.isSome_iff_exists.1 (hput l r rfl)
    have hr : step (.put l r) s = .ok (.int a.entry) s := by
      simp only [step]; rw [JM.bind_ok (put_present h hg.1 hg.2.1 hf)]; rfl
    refine same_shrunk h (by rw [hr]; rfl) ?_
    simp only [after, hf]
  | remove l r =>
    cases hf : i.find l r with
    | none =>
      have hr : step (.remove l r) s = .ok (.int (-1)) s := by
        simp only [step]; rw [JM.bind_ok (remove_absent h hg.1 hg.2.1 hf)]; rfl
      refine same_shrunk h (by rw [hr]; rfl) ?_
      simp only [after, hf]
    | some a =>
      obtain ⟨ha, rfl, rfl⟩ := find_some hf
      obtain ⟨s', -, -, h3⟩ := removeAt_ok h ha (hg.2.2 a hf)
      have hpos := (key_at h (.inl ha)).1
      have h2 : remove a.left a.right s = .ok a.entry s' := by
        unfold remove
        rw [JM.bind_ok (lookup_eq h hg.1 hg.2.1), hf]
        simp only
        rw [if_neg (by omega)]
        exact h3
      have hr : step (.remove a.left a.right) s = .ok (.int a.entry) s' := by
        simp only [step]; rw [JM.bind_ok h2]; rfl
      refine index_shrunk h (.removeAt a.entry) trivial (by simp [IndexSpec.KeepsNext]) ?_ ?_
      · rw [hr]
        show s'.mappings = _
        rw [edit_mappings h3]
        exact (state_map _ (fun _ => Index.Out.unit) _).symm
      · simp only [after, hf]
        exact rows_removeAt ha
  | removeAt e =>
    obtain ⟨a, ha, rfl, hrm⟩ := hg
    obtain ⟨s', -, h2, h3⟩ := removeAt_ok h ha hrm
    have hr : step (.removeAt a.entry) s = .ok (.int a.entry) s' := by
      simp only [step]; rw [JM.bind_ok h2]; rfl
    refine index_shrunk h (.removeAt a.entry) trivial (by simp [IndexSpec.KeepsNext]) ?_ ?_
    · rw [hr]
      show s'.mappings = _
      rw [edit_mappings h3]
      exact (state_map _ (fun _ => Index.Out.unit) _).symm
    · exact rows_removeAt ha
  | removeAtAndReserve e =>
    obtain ⟨a, ha, rfl, hrm⟩ := hg
    obtain ⟨s', h2, -⟩ := reserve_ok h ha hrm
    have hr : step (.removeAtAndReserve a.entry) s = .ok .unit s' := by
      simp only [step]; rw [JM.bind_ok h2]; rfl
    refine index_shrunk h (.removeAtAndReserve a.entry) ?_ (by simp [IndexSpec.KeepsNext]) ?_ ?_
    · exact ⟨row a, List.mem_map_of_mem ha, rfl, by simp [toAbs, KeyTypes.longEq]⟩
    · rw [hr]
      show s'.mappings = _
      rw [reserve_mappings h2]
      exact (state_map _ (fun _ => Index.Out.unit) _).symm
    · show (IndexSpec.Abs.drop (toAbs i) a.entry).rows = _
      rw [← toAbs_drop]; rfl
  | freeReservedEntry e =>
    obtain ⟨s', h2, -⟩ := free_ok h hg
    have hr : step (.freeReservedEntry e) s = .ok .unit s' := by
      simp only [step]; rw [JM.bind_ok h2]; rfl
    obtain ⟨m, m1, -, -⟩ := Index.freeReserved_spec h.idx (e := e) (by rw [held_toAbs]; exact hg)
    refine index_shrunk h (.freeReservedEntry e) ?_ (by simp [IndexSpec.KeepsNext]) ?_ rfl
    · show e ∈ (toAbs i).held
      rw [held_toAbs]; exact hg
    · rw [hr]
      unfold freeReservedEntry at h2
      rw [onMappings_ok m1] at h2
      injection h2 with _ h2
      show s'.mappings = _
      rw [← h2]
      show m = _
      simp only [Index.step]
      rw [JM.bind_ok m1]; rfl
  | contains l r =>
    have hc : (onMappings (Index.containsKey (pack l r)) s).state = s := by
      unfold Index.containsKey
      have h1 := Index.lookupEntry_spec h.idx (pack l r)
      rw [onMappings_ok (t := s.mappings) (a := _) (by rw [JM.bind_ok h1, JM.pure_apply])]
      rfl
    refine same_shrunk h ?_ rfl
    have : (step (.contains l r) s).state = s := (state_map _ (fun b => Out.bool b) s).trans hc
    rw [this]
  | lookupEntry l r =>
    refine same_shrunk h ?_ rfl
    have : (step (.lookupEntry l r) s).state = s := by
      simp only [step, lookupEntry]; rw [JM.bind_ok (lookup_eq h hg.1 hg.2)]; rfl
    rw [this]
  | size => exact reads (.bind (.same fun _ => rfl) fun _ => .pure _) rfl
  | getLeftAt e => exact reads (.bind (.same fun _ => getLeftAt_state e) fun _ => .pure _) rfl
  | getRightAt e => exact reads (.bind (.same fun _ => getRightAt_state e) fun _ => .pure _) rfl
  | forEachEntry =>
    refine same_shrunk h ?_ rfl
    have : (step .forEachEntry s).state = s := by
      simp only [step, forEachEntry]; rw [JM.bind_ok (onMappings_ok (Index.forEachEntry_spec h.idx))]; rfl
    rw [this]
  | withKey d key => exact reads (.bind (.modify fun s h => by rw [mappings_setMap]; exact h) fun _ => .pure _) rfl
  | count d => exact reads (.bind (.bind .get fun _ => same_side) fun _ => .pure _) rfl
  | forEachOf d k => exact reads (.bind (.bind (same_iterator k) fun _ => .bind .get fun _ => same_iterAll k _) fun _ => .pure _) rfl
  | iterator d k => exact reads (.bind (same_iterator k) fun _ => .pure _) rfl
  | iterReset d k => exact reads (.bind (same_iterReset k) fun _ => .pure _) rfl
  | hasNext d k => exact reads (.bind (same_hasNext k) fun _ => .pure _) rfl
  | next d k =>
    refine reads (.bind (same_next k) fun _ => .pure _) ?_
    simp only [after]
    split <;> rfl

end Bi

namespace Link.BiL
open Verif.Index Verif.Walk Link.ScriptL Link.WalkL
variable {σ : Type} {many : Bool} {fuel : Nat} {s : Bi} {i : Ideal}
  {c : Int → σ → Script Op Out σ} {P : Except Err Unit → σ → List Int × Ideal → Prop}

/-- The generated `forEachEntry` of the collection, with a consumer that is a script for each entry. -/
def scriptAll (many : Bool) (calls fuel : Nat) (c : Int → σ → Script Op Out σ) : JM (Beside σ Bi) (List Unit) :=
  bif many then Gen.PairsWalk.ManyToMany.forEachEntry fuel (consumer (step many calls) c)
  else Gen.PairsWalk.OneToMany.forEachEntry fuel (consumer (step many calls) c)

theorem scriptAll_eq (calls fuel : Nat) (c : Int → σ → Script Op Out σ) : scriptAll many calls fuel c = (do
    let v ← Gen.PairsWalk.Set.forEachEntry fuel (consumer (step many calls) c)
    pure ([] ++ v)) := by
  cases many <;> rfl

/-- The generated collection `o`, seen as the model's collection `s`. -/
structure Going (many : Bool) (fuel : Nat) (o : Bi) (i : Ideal) (s : Bi) : Prop where
  made : Made many fuel o i
  eq : ∃ v, o = wv s v
  inv : Bi.Inv s i
  bounds : Bounds s
  many : s.many = many

theorem Going.nexts {o : Bi} (h : Going many fuel o i s) : o.mappings.nexts = s.mappings.nexts := by
  obtain ⟨v, rfl⟩ := h.eq; rfl

theorem Going.heads {o : Bi} (h : Going many fuel o i s) : o.mappings.heads = s.mappings.heads := by
  obtain ⟨v, rfl⟩ := h.eq; rfl

theorem Going.size {o : Bi} (h : Going many fuel o i s) : o.mappings.size = s.mappings.size := by
  obtain ⟨v, rfl⟩ := h.eq; rfl

theorem going_call (hf : 2 ^ 31 ≤ fuel) {o : Bi} (h : Going many fuel o i s) (x : Op) (hg : Guard x i)
    (hput : ∀ l r, x = .put l r → (i.find l r).isSome) :
    Ok x (step many fuel x o).out i ∧ ∃ t, Going many fuel (step many fuel x o).state (after x (step many fuel x o).out i) t ∧
      Shrunk s.mappings t.mappings (Bi.toAbs i) (Bi.toAbs (after x (step many fuel x o).out i)) := by
  have hmade := h.made.call x hg
  obtain ⟨⟨v, rfl⟩, h2, h3, h4⟩ := h.eq, h.inv, h.bounds, h.many
  obtain ⟨e1, w, e2⟩ := step_of fuel hf h2 h3 h4 x hg v
  obtain ⟨q1, q2⟩ := Bi.step_spec h2 x hg
  have q3 := Bi.step_shrunk h2 x hg hput
  rw [← e1] at q1 q2 q3
  exact ⟨q1, _, ⟨hmade, ⟨w, e2⟩, q2, step_bounds x s h3, by rw [q2.many, after_many, ← h2.many, h4]⟩, q3⟩

theorem Shrunk_live {m m' : Bi.LIx} {i j : Ideal} (h : Shrunk m m' (Bi.toAbs i) (Bi.toAbs j)) {x : Int} (hx : x ∈ j.live) :
    x ∈ i.live := by
  rw [← Bi.live_toAbs] at hx ⊢; exact h.live hx

theorem find_same {A B : List Int} {l : List Int} {y : Int} (hsub : ∀ x, x ∈ B → x ∈ A)
    (h : (l.find? fun e => e ∈ A) = some y) (hy : y ∈ B) : (l.find? fun e => e ∈ B) = some y := by
  induction l with
  | nil => simp at h
  | cons x l ih =>
    rw [List.find?_cons] at h ⊢
    by_cases hx : x ∈ A
    · simp only [hx, decide_true, Option.some.injEq] at h
      subst h
      simp [hy]
    · simp only [hx, decide_false] at h
      have : x ∉ B := fun hb => hx (hsub x hb)
      simp only [this, decide_false]
      exact ih h

theorem find_head {A : List Int} {y : Int} {ys : List Int} : ∀ (l rest : List Int), (l.filter fun e => e ∈ A) = y :: ys →
    ((l ++ rest).find? fun e => e ∈ A) = some y
  | [], _, h => by simp at h
  | x :: l, rest, h => by
    rw [List.filter_cons] at h
    rw [List.cons_append, List.find?_cons]
    by_cases hx : x ∈ A
    · simp only [hx, decide_true, if_true, List.cons.injEq] at h
      rw [h.1] at hx ⊢
      simp [hx]
    · simp only [hx, decide_false, Bool.false_eq_true, if_false] at h
      simp only [hx, decide_false]
      exact find_head l rest h

theorem filter_trans {A B : List Int} (h : ∀ x, x ∈ B → x ∈ A) (l : List Int) :
    (l.filter fun e => e ∈ A).filter (fun e => e ∈ B) = l.filter fun e => e ∈ B := by
  rw [List.filter_filter]
  apply List.filter_congr
  intro x _
  by_cases hx : x ∈ B
  · simp [hx, h x hx]
  · simp [hx]

theorem all_call (hf : 2 ^ 31 ≤ fuel) {L : List Int} (x : Op) (o : Bi) (b : List Int × Ideal)
    (h : b.1 = L ∧ ∃ t, Going many fuel o b.2 t ∧ Shrunk s.mappings t.mappings (Bi.toAbs i) (Bi.toAbs b.2) ∧
      ∀ y, (L.find? fun e => e ∈ i.live) = some y → y ∈ b.2.live)
    (hm : entriesMay x b) :
    ∃ b', entriesCan x b (step many fuel x o).out b' ∧ (b'.1 = L ∧ ∃ t, Going many fuel (step many fuel x o).state b'.2 t ∧
      Shrunk s.mappings t.mappings (Bi.toAbs i) (Bi.toAbs b'.2) ∧
        ∀ y, (L.find? fun e => e ∈ i.live) = some y → y ∈ b'.2.live) := by
  obtain ⟨h1, t, h2, h3, h4⟩ := h
  obtain ⟨m1, m2, m3⟩ := hm
  obtain ⟨q1, t', q2, q3⟩ := going_call hf h2 x m1 m2
  refine ⟨_, ⟨q1, rfl⟩, h1, t', q2, h3.trans q3, fun y hy => ?_⟩
  refine m3 _ q1 y ?_
  rw [h1]
  exact find_same (fun x hx => Shrunk_live h3 hx) hy (h4 y hy)

theorem all_loop2 (hf : 2 ^ 31 ≤ fuel) (rest : List Int) :
    ∀ (l : List Int) (n : Nat) (acc : List Unit) (hits e u : Int) (o s : Bi) (i : Ideal) (x : σ),
      Going many fuel o i s → Sure entriesMay entriesCan entriesMove c P (l ++ rest, i) x →
      Path s.mappings.nexts e (l.filter fun e => e ∈ i.live) u → l.length < n → 0 ≤ hits → hits + l.length < 2 ^ 31 →
      (∃ z o' x' b, Gen.PairsWalk.Set.forEachEntry_loop2 (consumer (step many fuel) c) n acc hits e ⟨o, x⟩ = .err z ⟨o', x'⟩ ∧
        Made many fuel o' b.2 ∧ P (.error z) x' b) ∨
      (∃ acc' hits' o' s' x' i', Gen.PairsWalk.Set.forEachEntry_loop2 (consumer (step many fuel) c) n acc hits e ⟨o, x⟩ =
          .ok (acc', hits') ⟨o', x'⟩ ∧ Going many fuel o' i' s' ∧ Shrunk s.mappings s'.mappings (Bi.toAbs i) (Bi.toAbs i') ∧
        Sure entriesMay entriesCan entriesMove c P (rest, i') x' ∧
        hits ≤ hits' ∧ hits' ≤ hits + (l.filter fun e => e ∈ i.live).length)
  | _, 0, _, _, _, _, _, _, _, _, _, _, _, h, _, _ => by omega
  | [], n + 1, acc, hits, e, u, o, s, i, x, hg, hs, hp, _, h0, _ => by
    have h1 := hp.1; have h2 := hp.2
    refine .inr ⟨acc, hits, o, s, x, i, ?_, hg, shrunk_refl hg.inv.idx, hs, by omega, by simp⟩
    rw [Gen.PairsWalk.Set.forEachEntry_loop2, if_neg (by simp; omega)]; rfl
  | y :: l, n + 1, acc, hits, e, u, o, s, i, x, hg, hs, hp, hl, h0, hz => by
    simp only [List.length_cons] at hl hz
    cases hs with
    | done hm' _ => simp [entriesMove] at hm'
    | skip hm' hs =>
      simp only [List.cons_append, entriesMove, Option.some.injEq, Prod.mk.injEq] at hm'
      obtain ⟨hn, rfl⟩ := hm'
      have hy : y ∉ i.live := by
        intro hy
        rw [if_pos hy] at hn; cases hn
      have ef : ((y :: l).filter fun e => e ∈ i.live) = l.filter fun e => e ∈ i.live := by simp [hy]
      rw [ef] at hp ⊢
      exact all_loop2 hf rest l (n + 1) acc hits e u o s i x hg hs hp (by omega) h0 (by omega)
    | @step _ _ _ v Q hm' hs he hs' =>
      simp only [List.cons_append, entriesMove, Option.some.injEq, Prod.mk.injEq] at hm'
      obtain ⟨hn, rfl⟩ := hm'
      have hy : y ∈ i.live := by
        by_contra hy
        rw [if_neg hy] at hn; cases hn
      rw [if_pos hy] at hn
      obtain rfl := Option.some.inj hn
      have ef : ((y :: l).filter fun e => e ∈ i.live) = y :: l.filter fun e => e ∈ i.live := by simp [hy]
      rw [ef] at hp ⊢
      obtain ⟨rfl, p0, p1, p2⟩ := hp
      obtain ⟨out, x', o', b, q1, ⟨q2, s', q3, q4, q5⟩, q6⟩ := play_spec
        (R := fun o (b : List Int × Ideal) => b.1 = l ++ rest ∧ ∃ t, Going many fuel o b.2 t ∧
          Shrunk s.mappings t.mappings (Bi.toAbs i) (Bi.toAbs b.2) ∧
          ∀ y, ((l ++ rest).find? fun e => e ∈ i.live) = some y → y ∈ b.2.live)
        (step := step many fuel) (fun x o b h hm => all_call hf x o b h hm) (c e x) o (l ++ rest, i) x
        ⟨rfl, s, hg, shrunk_refl hg.inv.idx, fun y hy => by simpa using List.find?_some hy⟩ hs
      have unroll : Gen.PairsWalk.Set.forEachEntry_loop2 (consumer (step many fuel) c) (n + 1) acc hits e ⟨o, x⟩ =
          proceed out (Gen.PairsWalk.Set.forEachEntry_loop2 (consumer (step many fuel) c) n (acc ++ [()]) (hits + 1)
            (s.mappings.nexts.get e) ⟨o', x'⟩) ⟨o', x'⟩ := by
        rw [Gen.PairsWalk.Set.forEachEntry_loop2, if_pos (by simpa using p0),
          JM.bind_ok (lift_ok (rd_ok (fun self : Bi => self.mappings.nexts) ⟨p0, by rw [hg.nexts]; exact p1⟩) x), hg.nexts]
        simp only
        rw [consumer_cases q1, i32_of_range (by omega)]
      cases out with
      | error z =>
        exact .inl ⟨z, o', x', b, unroll, q3.made, he _ _ _ q6⟩
      | ok _ =>
        obtain ⟨u', hp'⟩ : ∃ u', Path s'.mappings.nexts (s.mappings.nexts.get e) (l.filter fun e => e ∈ b.2.live) u' := by
          rw [← filter_trans (A := i.live) (fun x hx => Shrunk_live q4 hx) l]
          cases hfl : l.filter fun e => e ∈ i.live with
          | nil => rw [hfl] at p2; exact ⟨u, p2⟩
          | cons y ys =>
            rw [hfl] at p2
            have hyy := p2.1
            rw [hyy] at p2 ⊢
            have hya : y ∈ i.live := by
              have : y ∈ l.filter fun e => e ∈ i.live := by rw [hfl]; simp
              simpa using (List.mem_filter.1 this).2
            have := q4.path hg.inv.idx q3.inv.idx p2 (by rw [Bi.live_toAbs]; exact hya)
              (by rw [Bi.live_toAbs]; exact q5 y (find_head l rest hfl))
            rw [Bi.live_toAbs] at this
            exact this
        have hnext := hs' x' b q6
        obtain ⟨b1, b2⟩ := b
        simp only at q2; subst q2
        have hfl : (l.filter fun e => e ∈ b2.live).length ≤ (l.filter fun e => e ∈ i.live).length := by
          rw [← filter_trans (A := i.live) (fun x hx => Shrunk_live q4 hx) l]
          exact List.length_filter_le _ _
        rcases all_loop2 hf rest l n (acc ++ [()]) (hits + 1) _ u' o' s' b2 x' q3 hnext hp' (by omega) (by omega) (by omega)
          with ⟨z, o2, x2, b, w1, w2, w3⟩ | ⟨acc', hits', o2, s2, x2, a2, w1, w2, w3, w4, w5, w6⟩
        · exact .inl ⟨z, o2, x2, b, unroll.trans w1, w2, w3⟩
        · refine .inr ⟨acc', hits', o2, s2, x2, a2, unroll.trans w1, w2, q4.trans w3, w4, by omega, ?_⟩
          simp only [List.length_cons]
          omega

theorem all_dead {i : Ideal} {x : σ} : ∀ (l : List Int), Sure entriesMay entriesCan entriesMove c P (l, i) x →
    (l.filter fun e => e ∈ i.live) = [] → P (.ok ()) x ([], i)
  | [], h, _ => by
    cases h with
    | done _ h => exact h
    | skip h _ => simp [entriesMove] at h
    | step _ h _ _ _ => simp [entriesMove] at h
  | e :: l, h, hf => by
    have he : e ∉ i.live := by
      intro he
      have : e ∈ (e :: l).filter fun e => e ∈ i.live := List.mem_filter.2 ⟨by simp, by simpa using he⟩
      rw [hf] at this; cases this
    have hf' : (l.filter fun e => e ∈ i.live) = [] := by simpa [he] using hf
    cases h with
    | done h _ => simp [entriesMove] at h
    | skip hm h =>
      simp only [entriesMove, Option.some.injEq, Prod.mk.injEq] at hm
      obtain ⟨-, rfl⟩ := hm
      exact all_dead l h hf'
    | step _ hm _ _ _ =>
      simp only [entriesMove, Option.some.injEq, Prod.mk.injEq] at hm
      rw [if_neg he] at hm
      exact absurd hm.1 (by simp)

theorem all_loop1 (hf : 2 ^ 31 ≤ fuel) (hits0 : Int) (hh0 : hits0 ≤ 2 ^ 29) (s0 : Bi) (i0 : Ideal)
    (h29 : s0.mappings.nexts.len ≤ 2 ^ 29 ∧ s0.mappings.heads.len ≤ 2 ^ 29) (hI0 : Bi.Inv s0 i0) :
    ∀ (n m : Nat) (acc : List Unit) (hits : Int) (o s : Bi) (i : Ideal) (x : σ) (p : Int),
      Going many fuel o i s → Shrunk s0.mappings s.mappings (Bi.toAbs i0) (Bi.toAbs i) →
      Sure entriesMay entriesCan entriesMove c P (orderFrom s0.mappings n p, i) x →
      0 ≤ p → p + n = s0.mappings.heads.len → n < m → 0 ≤ hits →
      hits + ((orderFrom s0.mappings n p).filter fun e => e ∈ i.live).length ≤ hits0 →
      ∃ r x' o' b, (match r with
        | .ok _ => ∃ q, Gen.PairsWalk.Set.forEachEntry_loop1 fuel (consumer (step many fuel) c) hits0 m acc hits p ⟨o, x⟩ = .ok q ⟨o', x'⟩
        | .error z => Gen.PairsWalk.Set.forEachEntry_loop1 fuel (consumer (step many fuel) c) hits0 m acc hits p ⟨o, x⟩ = .err z ⟨o', x'⟩) ∧
        Made many fuel o' b.2 ∧ P r x' b
  | n, 0, _, _, _, _, _, _, _, _, _, _, _, _, h, _, _ => by omega
  | 0, m + 1, acc, hits, o, s, i, x, p, hg, hs, hv, h0, h1, hfu, hp, hh => by
    refine ⟨.ok (), x, o, ([], i), ⟨(acc, hits), ?_⟩, hg.made, all_dead _ hv (by simp [orderFrom])⟩
    have := hs.1
    have e0 := hg.heads
    rw [Gen.PairsWalk.Set.forEachEntry_loop1, JM.bind_ok (lift_get _), if_neg (by simp [e0]; omega)]; rfl
  | n + 1, m + 1, acc, hits, o, s, i, x, p, hg, hs, hv, h0, h1, hfu, hp, hh => by
    have e1 := hs.1
    have e2 := hs.2.1
    have e0 := hg.heads
    by_cases hlt : hits < hits0
    · obtain ⟨u0, hp0, -⟩ := chain_at hI0.idx h0 (by omega)
      have hll : (chainOf s0.mappings p).length ≤ s0.mappings.nexts.len := hp0.length_le
      obtain ⟨u, hpa, -⟩ := chain_at hg.inv.idx h0 (by omega)
      have hpa : Path s.mappings.nexts (s.mappings.heads.get p) (chainOf s.mappings p) u := hpa
      rw [hs.2.2.2 p h0 (by omega), Bi.live_toAbs] at hpa
      have ho : orderFrom s0.mappings (n + 1) p = chainOf s0.mappings p ++ orderFrom s0.mappings n (p + 1) := rfl
      rw [ho] at hv hh
      rw [List.filter_append, List.length_append] at hh
      have unroll : ∀ (q : Res (Beside σ Bi) (List Unit × Int)),
          Gen.PairsWalk.Set.forEachEntry_loop2 (consumer (step many fuel) c) fuel acc hits (s.mappings.heads.get p) ⟨o, x⟩ = q →
          Gen.PairsWalk.Set.forEachEntry_loop1 fuel (consumer (step many fuel) c) hits0 (m + 1) acc hits p ⟨o, x⟩ =
            match q with
            | .ok q t => Gen.PairsWalk.Set.forEachEntry_loop1 fuel (consumer (step many fuel) c) hits0 m q.1 q.2 (p + 1) t
            | .err z t => .err z t := by
        rintro q rfl
        rw [Gen.PairsWalk.Set.forEachEntry_loop1, JM.bind_ok (lift_get _), if_pos (by simp [e0]; omega),
          JM.bind_ok (lift_ok (rd_ok (fun self : Bi => self.mappings.heads) ⟨h0, by rw [e0]; omega⟩) x), JM.bind_apply, e0]
        dsimp only
        rw [i32_of_range (x := p + 1) (by omega)]
        cases Gen.PairsWalk.Set.forEachEntry_loop2 (consumer (step many fuel) c) fuel acc hits (s.mappings.heads.get p) ⟨o, x⟩ <;> rfl
      rcases all_loop2 hf (orderFrom s0.mappings n (p + 1)) (chainOf s0.mappings p) fuel acc hits _ u o s i x hg hv hpa (by omega) hp (by omega)
        with ⟨z, o2, x2, b, w1, w2, w3⟩ | ⟨acc', hits', o2, s2, x2, a2, w1, w2, w3, w4, w5, w6⟩
      · exact ⟨.error z, x2, o2, b, unroll _ w1, w2, w3⟩
      · have hfl : ((orderFrom s0.mappings n (p + 1)).filter fun e => e ∈ a2.live).length ≤
            ((orderFrom s0.mappings n (p + 1)).filter fun e => e ∈ i.live).length := by
          rw [← filter_trans (A := i.live) (fun x hx => Shrunk_live w3 hx)]
          exact List.length_filter_le _ _
        obtain ⟨r, x', s', b, g1, g2, g3⟩ := all_loop1 hf hits0 hh0 s0 i0 h29 hI0 n m acc' hits' o2 s2 a2 x2 (p + 1) w2
          (hs.trans w3) w4 (by omega) (by omega) (by omega) (by omega) (by omega)
        refine ⟨r, x', s', b, ?_, g2, g3⟩
        rw [unroll _ w1]
        exact g1
    · refine ⟨.ok (), x, o, ([], i), ⟨(acc, hits), ?_⟩, hg.made, all_dead _ hv (List.length_eq_zero_iff.1 (by omega))⟩
      rw [Gen.PairsWalk.Set.forEachEntry_loop1, JM.bind_ok (lift_get _), if_neg (by simp [e0]; omega)]; rfl

theorem all_walk (hf : 2 ^ 31 ≤ fuel) {o : Bi} (hg : Going many fuel o i s) (u : σ)
    (hw : Sure entriesMay entriesCan entriesMove c P (order s.mappings, i) u) :
    ∃ r u' b o', P r u' b ∧
      Ended (Gen.PairsWalk.Set.forEachEntry fuel (consumer (step many fuel) c) ⟨o, u⟩) r ⟨o', u'⟩ ∧ Made many fuel o' b.2 := by
  have hI := hg.inv.idx
  have hol := order_length hI
  have hlens : Map.Lens s.mappings := Map.Fine.lens ⟨hg.bounds.1, _, _, hI.weaken fun h => h.elim⟩
  have hsz : s.mappings.size ≤ 2 ^ 29 := by
    have := hI.size; have := hI.count; have := hI.next_le; have := hI.next; have := hI.nlen; have := hI.cap_pos
    unfold Map.Lens at hlens
    omega
  have es := hg.size
  unfold Gen.PairsWalk.Set.forEachEntry
  dsimp only
  rw [JM.bind_ok (Link.ScriptL.lift_get _)]
  by_cases hz : s.mappings.size = 0
  · have : order s.mappings = [] := List.length_eq_zero_iff.1 (by omega)
    rw [this] at hw
    exact ⟨.ok (), u, ([], i), o, all_dead _ hw rfl, ⟨[], by rw [if_pos (by simpa [es] using hz)]; rfl⟩, hg.made⟩
  · rw [if_neg (by simpa [es] using hz), es]
    unfold Map.Lens at hlens
    have hfl := List.length_filter_le (fun e => decide (e ∈ i.live)) (order s.mappings)
    obtain ⟨r, u', s', b, g1, g2, g3⟩ := all_loop1 hf s.mappings.size (by omega) s i hlens hg.inv s.mappings.heads.len fuel []
      0 o s i u 0 hg (shrunk_refl hI) hw (by omega) (by omega) (by omega) (by omega) (by unfold order at *; omega)
    refine ⟨r, u', b, s', g3, ?_, g2⟩
    cases r with
    | ok _ => obtain ⟨p, hp⟩ := g1; exact ⟨p.1, by rw [JM.bind_ok hp]; rfl⟩
    | error z =>
      show _ = _
      exact JM.bind_err g1

theorem order_of (hf : 2 ^ 31 ≤ fuel) {o : Bi} (hg : Going many fuel o i s) {l : List Int}
    (hl : (step many fuel .forEachEntry o).out = .ok (.ints l)) : l = order s.mappings := by
  obtain ⟨⟨v, rfl⟩, h2, h3, h4⟩ := hg.eq, hg.inv, hg.bounds, hg.many
  rw [(step_of fuel hf h2 h3 h4 .forEachEntry trivial v).1] at hl
  simp only [Bi.step, Bi.forEachEntry] at hl
  rw [JM.bind_ok (Bi.onMappings_ok (forEachEntry_spec h2.idx))] at hl
  injection hl with hl
  injection hl with hl
  exact hl.symm

end Link.BiL

/-- **C115** The generated `forEachEntry` of the collection, with a consumer that may do anything that respects
`entriesMay`: the walk ends as it is sure to over the entries in the order `forEachEntry` gives them and the ideal
collection, with the consumer's state and the exception it says, and every guarded history of further calls gives the
ideal results. -/
theorem C115_generated_walk_partial {σ : Type} {many : Bool} {fuel : Nat} (hf : 2 ^ 31 ≤ fuel) {t : Bi} {i : Ideal}
    (h : Link.BiL.Made many fuel t i) (l : List Int) (hl : (Link.BiL.step many fuel .forEachEntry t).out = .ok (.ints l))
    (c : Int → σ → Script Op Out σ) (u : σ) (P : Except Err Unit → σ → List Int × Ideal → Prop)
    (hw : Sure entriesMay entriesCan entriesMove c P (l, i) u) :
    ∃ r u' b t', P r u' b ∧ Ended (Link.BiL.scriptAll many fuel fuel c ⟨t, u⟩) r ⟨t', u'⟩ ∧
      Link.BiL.Made many fuel t' b.2 ∧ ∀ more, Legal b.2 more (runM (Link.BiL.step many fuel) t' more).1 := by
  obtain ⟨s, v, e, q1, q2, q3⟩ := Link.BiL.made_inv hf h
  have hg : Link.BiL.Going many fuel t i s := ⟨h, ⟨v, e⟩, q1, q2, q3⟩
  obtain rfl := Link.BiL.order_of hf hg hl
  obtain ⟨r, u', b, t', p1, p2, p3⟩ := Link.BiL.all_walk hf hg u hw
  refine ⟨r, u', b, t', p1, ?_, p3, fun more => ?_⟩
  · rw [Link.BiL.scriptAll_eq]
    cases r with
    | ok x =>
      obtain ⟨y, hy⟩ := p2
      exact ⟨[] ++ y, by rw [JM.bind_ok hy]; rfl⟩
    | error x =>
      have p2 : _ = Res.err x _ := p2
      show _ = Res.err _ _
      rw [JM.bind_apply, p2]
  · obtain ⟨s, v, rfl, q1, q2, q3⟩ := Link.BiL.made_inv hf p3
    exact Link.BiL.legal fuel hf more q1 q2 q3

/-- A consumer of entries: it removes those that `p` tells, and notes what it is handed. -/
def weeds (p : Int → Bool) (e : Int) (u : List Int) : Script Op Out (List Int) :=
  if p e then .call (.removeAt e) fun r => match r with
    | .ok _ => .done (u ++ [e])
    | .error x => .fail x u
  else .done (u ++ [e])

namespace Link.BiL

theorem weed_sure (p : Int → Bool) : ∀ (L : List Int) (j : Ideal) (u : List Int), L.Nodup → (∀ e ∈ L, e ∈ j.live) →
    j.live.Nodup → (∀ a ∈ j.assocs, ∀ d, j.has d → a.entry < j.room d) →
    Sure entriesMay entriesCan entriesMove (weeds p)
      (fun r u' b => r = .ok () ∧ u' = u ++ L ∧ b.2.assocs = j.assocs.filter fun a => ¬ (a.entry ∈ L ∧ p a.entry)) (L, j) u
  | [], j, u, _, _, _, _ => .done rfl ⟨rfl, by simp, by simp⟩
  | e :: L, j, u, hL, hm, hn, hs => by
    rw [List.nodup_cons] at hL
    have he := hm e (by simp)
    have hmove : entriesMove (e :: L, j) = some (some e, L, j) := by
      show some _ = _
      rw [if_pos he]
    by_cases hp : p e
    · obtain ⟨a, ha, rfl⟩ := List.mem_map.1 he
      have hlive : (({ j.drop a.entry with free := a.entry :: j.free } : Ideal)).live = j.live.filter (· ≠ a.entry) := by
        rw [← Bi.live_drop]; rfl
      have hrem : Removable j a := by
        intro d' hd' e' he'
        have : a.entry ∈ j.entriesOf d' (a.key d') := by
          unfold Ideal.entriesOf Ideal.of
          exact List.mem_map_of_mem (by simp [List.mem_filter, ha])
        rw [he'] at this
        rw [← List.mem_singleton.1 this]
        exact hs a ha d' hd'
      have ind := weed_sure p L { j.drop a.entry with free := a.entry :: j.free } (u ++ [a.entry]) hL.2
        (fun x hx => by
          rw [hlive, List.mem_filter]
          refine ⟨hm x (by simp [hx]), ?_⟩
          have : x ≠ a.entry := fun e => hL.1 (e ▸ hx)
          simpa using this)
        (by rw [hlive]; exact hn.filter _)
        (fun b hb d hd => hs b (List.mem_filter.1 hb).1 d (by cases d <;> exact hd))
      have hw : weeds p a.entry u = .call (.removeAt a.entry) fun r => match r with
          | .ok _ => .done (u ++ [a.entry])
          | .error x => .fail x u := by
        unfold weeds; rw [if_pos hp]
      refine .step (fun r u' b => r = .ok () ∧ u' = u ++ [a.entry] ∧
          b = (L, { j.drop a.entry with free := a.entry :: j.free })) hmove ?_ (by simp) ?_
      · rw [hw]
        refine ⟨⟨⟨a, ha, rfl, hrem⟩, by simp, fun r _ x hx => ?_⟩, fun r b hr => ?_⟩
        · have hxL : x ∈ L := List.mem_of_find?_eq_some hx
          show x ∈ Ideal.live { j.drop a.entry with free := a.entry :: j.free }
          rw [hlive, List.mem_filter]
          refine ⟨hm x (by simp [hxL]), ?_⟩
          have : x ≠ a.entry := fun e => hL.1 (e ▸ hxL)
          simpa using this
        · obtain ⟨hr, rfl⟩ := hr
          have hr : r = .ok (.int a.entry) := hr
          subst hr
          exact ⟨rfl, rfl, rfl⟩
      · rintro u' b ⟨-, rfl, rfl⟩
        have hfin : ({ j.drop a.entry with free := a.entry :: j.free } : Ideal).assocs.filter (fun b => ¬ (b.entry ∈ L ∧ p b.entry)) =
            j.assocs.filter fun b => ¬ (b.entry ∈ a.entry :: L ∧ p b.entry) := by
          show (j.assocs.filter fun b => b.entry ≠ a.entry).filter _ = _
          rw [List.filter_filter]
          apply List.filter_congr
          intro b _
          by_cases hb : b.entry = a.entry
          · simp [hb, hp]
          · simp [hb]
        rw [hfin] at ind
        simpa using ind
    · have ind := weed_sure p L j (u ++ [e]) hL.2 (fun x hx => hm x (by simp [hx])) hn hs
      have hw : weeds p e u = .done (u ++ [e]) := by
        unfold weeds; rw [if_neg hp]
      refine .step (fun r u' b => r = .ok () ∧ u' = u ++ [e] ∧ b = (L, j)) hmove ?_ (by simp) ?_
      · rw [hw]; exact ⟨rfl, rfl, rfl⟩
      · rintro u' b ⟨-, rfl, rfl⟩
        have hfin : j.assocs.filter (fun b => ¬ (b.entry ∈ L ∧ p b.entry)) =
            j.assocs.filter fun b => ¬ (b.entry ∈ e :: L ∧ p b.entry) := by
          apply List.filter_congr
          intro b _
          by_cases hb : b.entry = e
          · simp [hb, hp]
          · simp [hb]
        rw [hfin] at ind
        simpa using ind

end Link.BiL

/-- **C115** A consumer that removes, of the entries it is handed, those that `p` tells, when every entry is within
reach: each entry is handed out once, and exactly these associations are gone. -/
theorem C115_generated_weed_partial {many : Bool} {fuel : Nat} (hf : 2 ^ 31 ≤ fuel) {t : Bi} {i : Ideal}
    (h : Link.BiL.Made many fuel t i) (p : Int → Bool) (hs : ∀ a ∈ i.assocs, ∀ d, i.has d → a.entry < i.room d) :
    ∃ t' j l, l.Perm i.live ∧ (Link.BiL.step many fuel .forEachEntry t).out = .ok (.ints l) ∧
      Ended (Link.BiL.scriptAll many fuel fuel (weeds p) ⟨t, []⟩) (.ok ()) ⟨t', l⟩ ∧
      j.assocs = i.assocs.filter (fun a => ¬ p a.entry) ∧
      Link.BiL.Made many fuel t' j ∧ ∀ more, Legal j more (runM (Link.BiL.step many fuel) t' more).1 := by
  obtain ⟨s, v, e, q1, q2, q3⟩ := Link.BiL.made_inv hf h
  have hn := Link.BiL.live_nodup hf h
  have hout : (Link.BiL.step many fuel .forEachEntry t).out = .ok (.ints (Index.order s.mappings)) := by
    subst e
    rw [(Link.BiL.step_of fuel hf q1 q2 q3 .forEachEntry trivial v).1]
    simp only [Bi.step, Bi.forEachEntry]
    rw [JM.bind_ok (Bi.onMappings_ok (Index.forEachEntry_spec q1.idx))]
    rfl
  have hperm := Index.order_perm q1.idx
  rw [Bi.live_toAbs] at hperm
  obtain ⟨r, u', b, t', ⟨rfl, rfl, h3⟩, h4, h5, h6⟩ := C115_generated_walk_partial hf h _ hout (weeds p) [] _
    (Link.BiL.weed_sure p (Index.order s.mappings) i [] (hperm.nodup_iff.2 hn) (fun e he => hperm.mem_iff.1 he) hn hs)
  refine ⟨t', b.2, _, hperm, hout, by simpa using h4, ?_, h5, h6⟩
  rw [h3]
  apply List.filter_congr
  intro a ha
  have : a.entry ∈ Index.order s.mappings := hperm.mem_iff.2 (List.mem_map_of_mem ha)
  simp [this]

/- The relation of the examples meets its hypothesis ... -/
example : ∀ a ∈ Link.BiL.fiveIdeal.assocs, ∀ d, Link.BiL.fiveIdeal.has d → a.entry < Link.BiL.fiveIdeal.room d := by
  intro a ha d _
  have : a ∈ ([⟨4, 2, 2⟩, ⟨3, 0, 2⟩, ⟨2, 0, 1⟩, ⟨1, 1, 0⟩, ⟨0, 0, 0⟩] : List Assoc) := ha
  simp only [List.mem_cons, List.not_mem_nil, or_false] at this
  rcases this with rfl | rfl | rfl | rfl | rfl <;> cases d <;> decide

/- ... and the pairs with entries 0, 2 and 4 are removed. -/
example : (match Link.BiL.scriptAll true 40 40 (weeds fun e => e % 2 == 0) ⟨(Link.BiL.fivePairs 40).state, []⟩ with
    | .ok _ t => some (t.ext.length, (runM (Link.BiL.step true 40) t.obj [.size, .contains 0 1, .contains 1 0, .contains 0 2,
        .forEachOf .left .value]).1)
    | _ => none) = some (5, [.ok (.int 2), .ok (.bool false), .ok (.bool true), .ok (.bool true), .ok (.ints [2])]) := by
  decide +kernel

/-- A consumer of entries that makes a call at the first one, and notes what it is handed. -/
def atFirst (o : Op) (e : Int) (u : List Int) : Script Op Out (List Int) :=
  if u = [] then .call o fun _ => .done [e] else .done (u ++ [e])

/- An entry that the consumer took out is passed over. -/
example : (match Link.BiL.scriptAll true 40 40 (atFirst (.removeAt 1)) ⟨(Link.BiL.fivePairs 40).state, []⟩ with
    | .ok _ t => some (t.ext, (runM (Link.BiL.step true 40) t.obj [.forEachEntry]).1)
    | _ => none) = some ([4, 0, 2, 3], [.ok (.ints [4, 0, 2, 3])]) := by
  decide +kernel

/-- C115 is false of a consumer that removes the entry that comes next (0, gone by then, is handed out), and of one that
puts a pair (entry 3, there all the time, is not handed out). -/
theorem C115_generated_walk_refuted :
    (match Link.BiL.scriptAll true 40 40 (atFirst (.removeAt 0)) ⟨(Link.BiL.fivePairs 40).state, []⟩ with
    | .ok _ t => some (t.ext, (runM (Link.BiL.step true 40) t.obj [.forEachEntry]).1)
    | _ => none) = some ([4, 0, 2, 1, 3], [.ok (.ints [4, 2, 1, 3])]) ∧
    (match Link.BiL.scriptAll true 40 40 (atFirst (.put 3 2)) ⟨(Link.BiL.fivePairs 40).state, []⟩ with
    | .ok _ t => some (t.ext, (runM (Link.BiL.step true 40) t.obj [.forEachEntry]).1)
    | _ => none) = some ([4, 0, 5, 2, 1], [.ok (.ints [4, 0, 5, 2, 1, 3])]) := by
  decide +kernel

/-- The consumer of a `removeIf`: it asks for the two keys of the entry it is handed, removes the entry if `p` says so of
them, and counts what it removes. -/
def removesIf (p : Int → Int → Bool) (e : Int) (u : Nat) : Script Op Out Nat :=
  .call (.getLeftAt e) fun l => .call (.getRightAt e) fun r =>
    match l, r with
    | .ok (.int l), .ok (.int r) =>
      if p l r then .call (.removeAt e) fun x => match x with
        | .ok _ => .done (u + 1)
        | .error z => .fail z u
      else .done u
    | _, _ => .fail .illegalState u

namespace Link.BiL

theorem removeIf_sure (p : Int → Int → Bool) : ∀ (L : List Int) (j : Ideal) (u : Nat), L.Nodup → (∀ e ∈ L, e ∈ j.live) →
    j.live.Nodup → (∀ a ∈ j.assocs, ∀ d, j.has d → a.entry < j.room d) →
    Sure entriesMay entriesCan entriesMove (removesIf p)
      (fun r u' b => r = .ok () ∧ u' + b.2.assocs.length = u + j.assocs.length ∧
        b.2.assocs = j.assocs.filter fun a => ¬ (a.entry ∈ L ∧ p a.left a.right)) (L, j) u
  | [], j, u, _, _, _, _ => .done rfl ⟨rfl, rfl, by simp⟩
  | e :: L, j, u, hL, hm, hn, hs => by
    rw [List.nodup_cons] at hL
    have he := hm e (by simp)
    have hmove : entriesMove (e :: L, j) = some (some e, L, j) := by
      show some _ = _
      rw [if_pos he]
    obtain ⟨a, ha, rfl⟩ := List.mem_map.1 he
    have first : ∀ x, (L.find? fun e => e ∈ j.live) = some x → x ∈ j.live := fun x hx => by simpa using List.find?_some hx
    by_cases hp : p a.left a.right
    · have hlive : (({ j.drop a.entry with free := a.entry :: j.free } : Ideal)).live = j.live.filter (· ≠ a.entry) := by
        rw [← Bi.live_drop]; rfl
      have hlen : ({ j.drop a.entry with free := a.entry :: j.free } : Ideal).assocs.length + 1 = j.assocs.length := by
        have h1 : (j.live.filter (· ≠ a.entry)).length + 1 = j.live.length := by
          have h2 : j.live.filter (· ≠ a.entry) = j.live.erase a.entry := by
            rw [hn.erase_eq_filter]
            apply List.filter_congr
            intro x _
            by_cases hx : x = a.entry <;> simp [hx]
          rw [h2, List.length_erase_of_mem he]
          have := List.length_pos_of_mem he
          omega
        rw [← hlive] at h1
        simpa [Ideal.live] using h1
      have hrem : Removable j a := by
        intro d' hd' e' he'
        have : a.entry ∈ j.entriesOf d' (a.key d') := by
          unfold Ideal.entriesOf Ideal.of
          exact List.mem_map_of_mem (by simp [List.mem_filter, ha])
        rw [he'] at this
        rw [← List.mem_singleton.1 this]
        exact hs a ha d' hd'
      have ind := removeIf_sure p L { j.drop a.entry with free := a.entry :: j.free } (u + 1) hL.2
        (fun x hx => by
          rw [hlive, List.mem_filter]
          refine ⟨hm x (by simp [hx]), ?_⟩
          have : x ≠ a.entry := fun e => hL.1 (e ▸ hx)
          simpa using this)
        (by rw [hlive]; exact hn.filter _)
        (fun b hb d hd => hs b (List.mem_filter.1 hb).1 d (by cases d <;> exact hd))
      refine .step (fun r u' b => r = .ok () ∧ u' = u + 1 ∧
          b = (L, { j.drop a.entry with free := a.entry :: j.free })) hmove ?_ (by simp) ?_
      · refine ⟨⟨trivial, by simp, fun r _ x hx => first x hx⟩, fun l b hl => ?_⟩
        obtain ⟨hl, rfl⟩ := hl
        have hl := hl a (.inl ha) rfl
        subst hl
        refine ⟨⟨trivial, by simp, fun r _ x hx => first x hx⟩, fun r b hr => ?_⟩
        obtain ⟨hr, rfl⟩ := hr
        have hr := hr a (.inl ha) rfl
        subst hr
        simp only [hp, if_true]
        refine ⟨⟨⟨a, ha, rfl, hrem⟩, by simp, fun r _ x hx => ?_⟩, fun r b hr => ?_⟩
        · have hxL : x ∈ L := List.mem_of_find?_eq_some hx
          show x ∈ Ideal.live { j.drop a.entry with free := a.entry :: j.free }
          rw [hlive, List.mem_filter]
          refine ⟨hm x (by simp [hxL]), ?_⟩
          have : x ≠ a.entry := fun e => hL.1 (e ▸ hxL)
          simpa using this
        · obtain ⟨hr, rfl⟩ := hr
          have hr : r = .ok (.int a.entry) := hr
          subst hr
          exact ⟨rfl, rfl, rfl⟩
      · rintro u' b ⟨-, rfl, rfl⟩
        have hfin : ({ j.drop a.entry with free := a.entry :: j.free } : Ideal).assocs.filter
              (fun b => ¬ (b.entry ∈ L ∧ p b.left b.right)) =
            j.assocs.filter fun b => ¬ (b.entry ∈ a.entry :: L ∧ p b.left b.right) := by
          show (j.assocs.filter fun b => b.entry ≠ a.entry).filter _ = _
          rw [List.filter_filter]
          apply List.filter_congr
          intro b hb
          by_cases hba : b.entry = a.entry
          · have h1 := find_entry hn hb
            have h2 := find_entry hn ha
            rw [hba] at h1
            obtain rfl : b = a := Option.some.inj (h1.symm.trans h2)
            simp [hp]
          · simp [hba]
        rw [hfin] at ind
        have hc : u + 1 + ({ j.drop a.entry with free := a.entry :: j.free } : Ideal).assocs.length = u + j.assocs.length := by
          omega
        rw [hc] at ind
        exact ind
    · have ind := removeIf_sure p L j u hL.2 (fun x hx => hm x (by simp [hx])) hn hs
      refine .step (fun r u' b => r = .ok () ∧ u' = u ∧ b = (L, j)) hmove ?_ (by simp) ?_
      · refine ⟨⟨trivial, by simp, fun r _ x hx => first x hx⟩, fun l b hl => ?_⟩
        obtain ⟨hl, rfl⟩ := hl
        have hl := hl a (.inl ha) rfl
        subst hl
        refine ⟨⟨trivial, by simp, fun r _ x hx => first x hx⟩, fun r b hr => ?_⟩
        obtain ⟨hr, rfl⟩ := hr
        have hr := hr a (.inl ha) rfl
        subst hr
        simp only [if_neg hp]
        exact ⟨rfl, rfl, rfl⟩
      · rintro u' b ⟨-, rfl, rfl⟩
        have hfin : j.assocs.filter (fun b => ¬ (b.entry ∈ L ∧ p b.left b.right)) =
            j.assocs.filter fun b => ¬ (b.entry ∈ a.entry :: L ∧ p b.left b.right) := by
          apply List.filter_congr
          intro b hb
          by_cases hba : b.entry = a.entry
          · have h1 := find_entry hn hb
            have h2 := find_entry hn ha
            rw [hba] at h1
            obtain rfl : b = a := Option.some.inj (h1.symm.trans h2)
            simp [hp]
          · simp [hba]
        rw [hfin] at ind
        exact ind

end Link.BiL

/-- **C115** A consumer that looks up the two keys of each entry and removes the entry if `p` says so of them, when every
entry is within reach: exactly these associations are gone, and the consumer has counted them. -/
theorem C115_generated_remove_if_partial {many : Bool} {fuel : Nat} (hf : 2 ^ 31 ≤ fuel) {t : Bi} {i : Ideal}
    (h : Link.BiL.Made many fuel t i) (p : Int → Int → Bool) (hs : ∀ a ∈ i.assocs, ∀ d, i.has d → a.entry < i.room d) :
    ∃ t' j n, Ended (Link.BiL.scriptAll many fuel fuel (removesIf p) ⟨t, 0⟩) (.ok ()) ⟨t', n⟩ ∧
      n + j.assocs.length = i.assocs.length ∧ j.assocs = i.assocs.filter (fun a => ¬ p a.left a.right) ∧
      Link.BiL.Made many fuel t' j ∧ ∀ more, Legal j more (runM (Link.BiL.step many fuel) t' more).1 := by
  obtain ⟨s, v, e, q1, q2, q3⟩ := Link.BiL.made_inv hf h
  have hn := Link.BiL.live_nodup hf h
  have hout : (Link.BiL.step many fuel .forEachEntry t).out = .ok (.ints (Index.order s.mappings)) := by
    subst e
    rw [(Link.BiL.step_of fuel hf q1 q2 q3 .forEachEntry trivial v).1]
    simp only [Bi.step, Bi.forEachEntry]
    rw [JM.bind_ok (Bi.onMappings_ok (Index.forEachEntry_spec q1.idx))]
    rfl
  have hperm := Index.order_perm q1.idx
  rw [Bi.live_toAbs] at hperm
  obtain ⟨r, u', b, t', ⟨rfl, h2, h3⟩, h4, h5, h6⟩ := C115_generated_walk_partial hf h _ hout (removesIf p) 0 _
    (Link.BiL.removeIf_sure p (Index.order s.mappings) i 0 (hperm.nodup_iff.2 hn) (fun e he => hperm.mem_iff.1 he) hn hs)
  refine ⟨t', b.2, u', h4, by simpa using h2, ?_, h5, h6⟩
  rw [h3]
  apply List.filter_congr
  intro a ha
  have : a.entry ∈ Index.order s.mappings := hperm.mem_iff.2 (List.mem_map_of_mem ha)
  simp [this]

/- The pairs with left key 0 or right key 2 are removed, four of five. -/
example : (match Link.BiL.scriptAll true 40 40 (removesIf fun l r => l == 0 || r == 2) ⟨(Link.BiL.fivePairs 40).state, 0⟩ with
    | .ok _ t => some (t.ext, (runM (Link.BiL.step true 40) t.obj [.size, .contains 1 0, .contains 2 2, .forEachOf .left .value]).1)
    | _ => none) = some (4, [.ok (.int 1), .ok (.bool true), .ok (.bool false), .ok (.ints [])]) := by
  decide +kernel

end Verif
