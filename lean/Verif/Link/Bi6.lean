import Verif.Link.Bi5
import Verif.Props.Bi
/-! The two-sided collections: histories and constructors of the generated classes. -/
set_option linter.unusedSectionVars false
namespace Verif.Link.BiL
open Verif Verif.Gen BiSpec
variable {α β γ : Type} {s : Bi} {i : Ideal} {d : Dir} {many : Bool}

theorem setOk_ne {k : Kind} {key : Int} {good out : Except Err Bi.Out} (h : SetOk i d k key good out)
    (hg : good ≠ .error .diverge) : out ≠ .error .diverge := by
  cases k with
  | entry =>
    have : out = good := h
    rw [this]; exact hg
  | value =>
    rcases h.2.2 with h | h
    · rw [h]; exact hg
    · rw [h]; simp

theorem keyAt_ne (e : Int) (f : BitVec 64 → Bi.Out) :
    ((Bi.onMappings (Index.getKeyAt e) >>= fun x => pure (f x)) s).out ≠ .error .diverge := by
  rw [JM.bind_apply]
  simp only [Bi.onMappings, Index.getKeyAt, rd]
  by_cases h : 0 ≤ e ∧ e < s.mappings.keys.len
  · simp only [if_pos h]; simp
  · simp only [if_neg h]; simp

/-- A call within the caller's duties ends. -/
theorem step_ne_diverge (h : Bi.Inv s i) (o : Bi.Op) (hg : Guard o i) :
    (Bi.step o s).out ≠ .error .diverge := by
  have hk := (Bi.step_spec h o hg).1
  intro hd
  cases o with
  | getLeftAt e =>
    refine keyAt_ne (s := s) e (fun x => .int (Pack.unpackHiInt x).toInt) ?_
    rw [← hd]; simp only [Bi.step, Bi.getLeftAt, assoc]; rfl
  | getRightAt e =>
    refine keyAt_ne (s := s) e (fun x => .int (Pack.unpackLoInt x).toInt) ?_
    rw [← hd]; simp only [Bi.step, Bi.getRightAt, assoc]; rfl
  | put l r => simp only [Ok, hd] at hk; split at hk <;> simp at hk
  | remove l r => simp only [Ok, hd] at hk; split at hk <;> simp at hk
  | lookupEntry l r => simp only [Ok, hd] at hk; split at hk <;> simp at hk
  | count d => simp only [Ok, hd] at hk; (repeat' split at hk) <;> simp at hk
  | forEachOf d k =>
    rcases hk.2 with hk | hk <;> rw [hd] at hk <;> simp at hk
  | iterator d k => exact setOk_ne hk (by simp) hd
  | iterReset d k => exact setOk_ne hk (by simp) hd
  | hasNext d k =>
    obtain ⟨_, hr⟩ := hg
    cases hl : (i.cursor d k).rest with
    | none => exact hr hl
    | some l => have := hk l hl; rw [hd] at this; simp at this
  | next d k =>
    simp only [Ok, hd] at hk
    split at hk
    · obtain ⟨a, _, _, _, _, hk⟩ := hk
      simp at hk
    · simp at hk
  | removeAt e => simp only [Ok, hd] at hk; simp at hk
  | removeAtAndReserve e => simp only [Ok, hd] at hk; simp at hk
  | freeReservedEntry e => simp only [Ok, hd] at hk; simp at hk
  | withKey d k => simp only [Ok, hd] at hk; simp at hk
  | contains l r => simp only [Ok, hd] at hk; simp at hk
  | size => simp only [Ok, hd] at hk; simp at hk
  | forEachEntry => simp only [Ok, hd] at hk; obtain ⟨l, hk, _⟩ := hk; simp at hk

theorem after_many (o : Bi.Op) (out : Except Err Bi.Out) (i : Ideal) : (after o out i).many = i.many := by
  cases o <;> simp only [after] <;> (try split) <;> rfl

/-- One call, as an equation. -/
theorem step_of (fuel : Nat) (hf : 2 ^ 31 ≤ fuel) (h : Bi.Inv s i) (hb : Bounds s) (hm : s.many = many) (o : Bi.Op)
    (hg : Guard o i) (v : Arr Unit) :
    (step many fuel o (wv s v)).out = (Bi.step o s).out ∧
      ∃ w, (step many fuel o (wv s v)).state = wv (Bi.step o s).state w := by
  have hr := step_rb fuel hf h hb hm o hg v
  have hn := step_ne_diverge h o hg
  cases hs : Bi.step o s with
  | ok a t => rw [hs] at hr; obtain ⟨w, hw⟩ := hr; rw [hw]; exact ⟨rfl, w, rfl⟩
  | err e t =>
    rw [hs] at hr hn
    rcases hr with hr | ⟨w, hw⟩
    · subst hr; exact absurd rfl hn
    · rw [hw]; exact ⟨rfl, w, rfl⟩

theorem legal (fuel : Nat) (hf : 2 ^ 31 ≤ fuel) : ∀ (ops : List Bi.Op) {s : Bi} {i : Ideal} {v : Arr Unit},
    Bi.Inv s i → Bounds s → s.many = many → Legal i ops (runM (step many fuel) (wv s v) ops).1
  | [], _, _, _, _, _, _ => trivial
  | o :: os, s, i, v, h, hb, hm => by
    intro hg
    obtain ⟨e1, w, e2⟩ := step_of fuel hf h hb hm o hg v
    obtain ⟨h1, h2⟩ := Bi.step_spec h o hg
    rw [e1, e2]
    refine ⟨h1, legal fuel hf os h2 (step_bounds o s hb) ?_⟩
    rw [h2.many, after_many, ← h.many, hm]

theorem legalSmall (fuel : Nat) (hf : 2 ^ 31 ≤ fuel) {cap : Int} : ∀ (ops : List Bi.Op) {s : Bi} {i : Ideal} {v : Arr Unit},
    Bi.Inv s i → Bi.Roomy cap i → Bounds s → s.many = many → LegalSmall cap i ops (runM (step many fuel) (wv s v) ops).1
  | [], _, _, _, _, _, _, _ => trivial
  | o :: os, s, i, v, h, hr, hb, hm => by
    intro hg
    have hg' := Bi.small_guard h hr hg
    obtain ⟨e1, w, e2⟩ := step_of fuel hf h hb hm o hg' v
    obtain ⟨h1, h2⟩ := Bi.step_spec h o hg'
    rw [e1, e2]
    refine ⟨Bi.exact_of_ok h hr h1, legalSmall fuel hf os h2 (Bi.roomy_after h hr hg h1) (step_bounds o s hb) ?_⟩
    rw [h2.many, after_many, ← h.many, hm]

/-! ### constructors -/

/-- The constructors: `CompactManyToMany(il, ir, ic, counts)` if `many`, else `CompactOneToMany(il, ic, counts)`. -/
def new (many : Bool) (il ir ic : Int) (counts : Bool) : JM Bi Unit :=
  bif many then Pairs.ManyToMany.init4 il ir ic counts else Pairs.OneToMany.init3 il ic counts

/-- An object before its constructor runs: Java's zeros and empty arrays.  (`many` tells the classes apart; the
right half of a `CompactOneToMany` does not exist, its mapping is set to -1 here as in the model.) -/
def raw (many : Bool) : Bi :=
  { mappings := ⟨0, 0, 0, 0, Arr.create 0 0, Arr.create 0 0, 0, 0, 0, 0, 0, Arr.create 0 0, Arr.create 0 (), fun _ => 0, fun _ _ => false⟩
    left := ⟨Arr.create 0 0, Arr.create 0 0, Arr.create 0 0, none⟩
    right := ⟨Arr.create 0 0, Arr.create 0 0, Arr.create 0 0, none⟩
    leftMap := ⟨⟨0, 0⟩, ⟨0, 0⟩, 0⟩
    rightMap := ⟨⟨0, 0⟩, ⟨0, 0⟩, if many then 0 else -1⟩
    many := many }

theorem inv_right (h : Bi.Inv s i) (hm : i.many = false) (r : Side) : Bi.Inv { s with right := r } i := by
  refine { idx := h.idx, many := h.many, key := fun d => by cases d; exact h.key .left; exact h.key .right, sides := ?_, ints := h.ints, curs := ?_ }
  · intro d hd
    cases d with
    | left => exact h.sides .left hd
    | right => rw [Ideal.has, hm] at hd; cases hd
  · intro d k hd
    have := h.curs d k hd
    cases d <;> cases k <;> exact this

theorem initSet (ic : Int) (s : LIx) (hz : s.modificationCount = 0) :
    match KeyIndexedSet.init1 KeyTypes.longHash KeyTypes.longEq ic s with
    | .ok _ t => ∃ u w, Index.new KeyTypes.longHash KeyTypes.longEq ic 3 4 = .ok u ∧ t = SetL.withV u w
    | .err e _ => Index.new (V := Unit) KeyTypes.longHash KeyTypes.longEq ic 3 4 = .error e := by
  have h1 := SetL.init2_gen KeyTypes.longHash KeyTypes.longEq ic (3, 4) s hz
  have h2 := Map.init2_eq KeyTypes.longHash KeyTypes.longEq ic (3, 4) s hz
  have e : KeyIndexedSet.init2 KeyTypes.longHash KeyTypes.longEq ic (3, 4) s =
    KeyIndexedSet.init1 KeyTypes.longHash KeyTypes.longEq ic s := rfl
  rw [e] at h1
  cases hr : KeyIndexedSet.init1 KeyTypes.longHash KeyTypes.longEq ic s with
  | ok a t =>
    rw [hr] at h1
    obtain ⟨u, w, h3, rfl⟩ := h1
    rw [h3] at h2
    exact ⟨u, w, h2.symm, rfl⟩
  | err e t =>
    rw [hr] at h1
    obtain ⟨u, h3⟩ := h1
    rw [h3] at h2
    exact h2.symm

theorem new_short {n ic : Int} {counts : Bool} {x : Side} (h : Side.new n ic counts = .ok x) (hi : ic < 2 ^ 31) : Short x := by
  unfold Side.new at h
  split at h
  · cases h
  · injection h with h
    subst h
    show (Arr.create ic (-1)).len < 2 ^ 31
    simp only [Arr.create]
    omega

theorem cap_lt {ic : Int} {u : LIx} (h : Index.new KeyTypes.longHash KeyTypes.longEq ic 3 4 = .ok u) : ic < 2 ^ 31 := by
  unfold Index.new at h
  split at h
  · cases h
  · rename_i hc
    rw [MAX_CAPACITY_eq] at hc
    omega

/-- The generated constructors succeed when the model's does, and make the same object but for the value array
(and the right half a `CompactOneToMany` has not). -/
theorem new_gen (many : Bool) (il ir ic : Int) (counts : Bool) :
    match new many il ir ic counts (raw many) with
    | .ok _ t => ∃ s v, t = wv s v ∧ Bi.Inv s (start many il ir ic counts) ∧ Bounds s ∧ s.many = many ∧
        ∃ s', Bi.new many il ir ic counts = .ok s'
    | .err e _ => Bi.new many il ir ic counts = .error e := by
  have hset := initSet ic (raw many).mappings rfl
  cases hm : KeyIndexedSet.init1 KeyTypes.longHash KeyTypes.longEq ic (raw many).mappings with
  | err e t =>
    rw [hm] at hset
    have e1 := Bi.onMappings_err (s := raw many) hm
    have e2 : Bi.new many il ir ic counts = .error e := by unfold Bi.new; rw [hset]; rfl
    cases many
    · show match Pairs.OneToMany.init3 il ic counts (raw false) with | .ok _ t => _ | .err e _ => _
      unfold Pairs.OneToMany.init3
      rw [JM.bind_err e1]; exact e2
    · show match Pairs.ManyToMany.init4 il ir ic counts (raw true) with | .ok _ t => _ | .err e _ => _
      unfold Pairs.ManyToMany.init4 Pairs.ManyToMany.init_CompactOneToMany_3
      rw [JM.bind_err (JM.bind_err e1)]; exact e2
  | ok a t =>
    rw [hm] at hset
    obtain ⟨u, w, hnew, rfl⟩ := hset
    have e1 := Bi.onMappings_ok (s := raw many) hm
    have hbx := Map.new_bx _ _ hnew
    have hic := cap_lt hnew
    have hl := initSide_eq il ic counts (raw many).left
    have hr := initSide_eq ir ic counts (raw many).right
    have hleft : ∀ x, Bi.side .left { raw many with mappings := x } = (raw many).left := fun _ => rfl
    cases many
    · show match Pairs.OneToMany.init3 il ic counts (raw false) with | .ok _ t => _ | .err e _ => _
      unfold Pairs.OneToMany.init3
      rw [JM.bind_ok e1]
      cases hL : Pairs.Side.init il ic counts (raw false).left with
      | err e t =>
        rw [hL] at hl
        rw [JM.bind_err (Bi.onSide_err (s := { raw false with mappings := SetL.withV u w }) (d := .left) hL)]
        show Bi.new _ _ _ _ _ = _
        unfold Bi.new
        rw [hnew, ← hl]; rfl
      | ok a L =>
        rw [hL] at hl
        rw [JM.bind_ok (Bi.onSide_ok (s := { raw false with mappings := SetL.withV u w }) (d := .left) hL)]
        have hn : Bi.new false il ir ic counts = .ok ⟨u, L, ⟨Arr.create 0 (-1), Arr.create 0 (-1), Arr.create 0 (-1), none⟩, Bi.Mapping.init, Bi.Mapping.init, false⟩ := by
          unfold Bi.new
          rw [hnew, ← hl]; rfl
        refine ⟨⟨u, L, (raw false).right, Bi.Mapping.init, Bi.Mapping.init, false⟩, w, rfl, inv_right (Bi.new_inv hn) rfl _, ⟨hbx, ?_⟩, rfl, _, hn⟩
        intro d
        cases d
        · exact new_short hl.symm hic
        · show (Arr.create 0 0).len < _
          simp [Arr.create]
    · show match Pairs.ManyToMany.init4 il ir ic counts (raw true) with | .ok _ t => _ | .err e _ => _
      unfold Pairs.ManyToMany.init4 Pairs.ManyToMany.init_CompactOneToMany_3
      rw [assoc, JM.bind_ok e1, assoc]
      cases hL : Pairs.Side.init il ic counts (raw true).left with
      | err e t =>
        rw [hL] at hl
        rw [JM.bind_err (Bi.onSide_err (s := { raw true with mappings := SetL.withV u w }) (d := .left) hL)]
        show Bi.new _ _ _ _ _ = _
        unfold Bi.new
        rw [hnew, ← hl]; rfl
      | ok a L =>
        rw [hL] at hl
        rw [JM.bind_ok (Bi.onSide_ok (s := { raw true with mappings := SetL.withV u w }) (d := .left) hL), assoc]
        cases hR : Pairs.Side.init ir ic counts (raw true).right with
        | err e t =>
          rw [hR] at hr
          show match (Bi.onSide .right (Pairs.Side.init ir ic counts) >>= fun _ =>
            Pairs.Mapping.init Pairs.ManyToMany.getLeftAt .right >>= fun _ => (pure () : JM Bi Unit))
            (⟨SetL.withV u w, L, (raw true).right, Bi.Mapping.init, (raw true).rightMap, true⟩ : Bi) with | .ok _ t => _ | .err e _ => _
          rw [JM.bind_err (Bi.onSide_err (s := ⟨SetL.withV u w, L, (raw true).right, Bi.Mapping.init, (raw true).rightMap, true⟩) (d := .right) hR)]
          show Bi.new _ _ _ _ _ = _
          unfold Bi.new
          rw [hnew, ← hl]
          show ((if (true : Bool) = true then Side.new ir ic counts else Side.new 0 0 false) >>= _) = _
          rw [if_pos rfl, ← hr]; rfl
        | ok a R =>
          rw [hR] at hr
          show match (Bi.onSide .right (Pairs.Side.init ir ic counts) >>= fun _ =>
            Pairs.Mapping.init Pairs.ManyToMany.getLeftAt .right >>= fun _ => (pure () : JM Bi Unit))
            (⟨SetL.withV u w, L, (raw true).right, Bi.Mapping.init, (raw true).rightMap, true⟩ : Bi) with | .ok _ t => _ | .err e _ => _
          rw [JM.bind_ok (Bi.onSide_ok (s := ⟨SetL.withV u w, L, (raw true).right, Bi.Mapping.init, (raw true).rightMap, true⟩) (d := .right) hR)]
          have hn : Bi.new true il ir ic counts = .ok ⟨u, L, R, Bi.Mapping.init, Bi.Mapping.init, true⟩ := by
            unfold Bi.new
            rw [hnew, ← hl]
            show ((if (true : Bool) = true then Side.new ir ic counts else Side.new 0 0 false) >>= _) = _
            rw [if_pos rfl, ← hr]; rfl
          refine ⟨⟨u, L, R, Bi.Mapping.init, Bi.Mapping.init, true⟩, w, rfl, Bi.new_inv hn, ⟨hbx, ?_⟩, rfl, _, hn⟩
          intro d
          cases d
          · exact new_short hl.symm hic
          · exact new_short hr.symm hic

end Verif.Link.BiL
