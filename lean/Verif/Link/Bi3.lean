import Verif.Link.Bi2
/-! The two-sided collections: every public call of the generated classes does what the model does. -/
set_option linter.unusedSectionVars false
namespace Verif.Link.BiL
open Verif Verif.Gen BiSpec
variable {α β γ : Type}

/-- The lookup functions the constructors hand to the mappings. -/
def lookups (many : Bool) : Dir → Int → JM Bi Int := bif many then Pairs.ManyToMany.lookup else Pairs.OneToMany.lookup

/-- One public call of the generated classes: `CompactManyToMany` if `many`, else `CompactOneToMany`.  The
consumers of the `forEach` calls record what they are given. -/
def step (many : Bool) (fuel : Nat) : Bi.Op → JM Bi Bi.Out
  | .put l r => do return .int (← bif many then Pairs.ManyToMany.put fuel l r else Pairs.OneToMany.put fuel l r)
  | .remove l r => do return .int (← bif many then Pairs.ManyToMany.remove fuel l r else Pairs.OneToMany.remove fuel l r)
  | .removeAt e => do return .int (← bif many then Pairs.ManyToMany.removeAt fuel e else Pairs.OneToMany.removeAt fuel e)
  | .removeAtAndReserve e => do
    bif many then Pairs.ManyToMany.removeAtAndReserve fuel e else Pairs.OneToMany.removeAtAndReserve fuel e
    pure .unit
  | .freeReservedEntry e => do
    bif many then Pairs.ManyToMany.freeReservedEntry e else Pairs.OneToMany.freeReservedEntry e
    pure .unit
  | .contains l r => do return .bool (← bif many then Pairs.ManyToMany.contains fuel l r else Pairs.OneToMany.contains fuel l r)
  | .lookupEntry l r => do
    return .int (← bif many then Pairs.ManyToMany.lookupEntry fuel l r else Pairs.OneToMany.lookupEntry fuel l r)
  | .size => do return .int (← bif many then Pairs.ManyToMany.size else Pairs.OneToMany.size)
  | .getLeftAt e => do return .int (← bif many then Pairs.ManyToMany.getLeftAt e else Pairs.OneToMany.getLeftAt e)
  | .getRightAt e => do return .int (← bif many then Pairs.ManyToMany.getRightAt e else Pairs.OneToMany.getRightAt e)
  | .forEachEntry => do
    return .ints (← bif many then Pairs.ManyToMany.forEachEntry fuel pure else Pairs.OneToMany.forEachEntry fuel pure)
  | .withKey .left key => do
    bif many then Pairs.ManyToMany.withLeft key else Pairs.OneToMany.withLeft key
    pure .unit
  | .withKey .right key => do
    bif many then Pairs.ManyToMany.withRight key else JM.throw .nullPointer
    pure .unit
  | .count d => do return .int (← Pairs.Mapping.count (lookups many d) d)
  | .forEachOf d .entry => do return .ints (← Pairs.Mapping.forEachEntry (lookups many d) d fuel pure)
  | .forEachOf d .value => do return .ints (← Pairs.Mapping.forEachValue (lookups many d) d fuel pure)
  | .iterator d .entry => do Pairs.Mapping.entryIterator (lookups many d) d; pure .unit
  | .iterator d .value => do Pairs.Mapping.valueIterator (lookups many d) d; pure .unit
  | .iterReset d .entry => do Pairs.EntryIterator.reset0 (lookups many d) d; pure .unit
  | .iterReset d .value => do Pairs.ValueIterator.reset0 (lookups many d) d; pure .unit
  | .hasNext d .entry => do return .bool (← Pairs.EntryIterator.hasNext (lookups many d) d)
  | .hasNext d .value => do return .bool (← Pairs.ValueIterator.hasNext (lookups many d) d)
  | .next d .entry => do return .int (← Pairs.EntryIterator.next (lookups many d) d)
  | .next d .value => do return .int (← Pairs.ValueIterator.next (lookups many d) d)

/-! ### iterators -/

theorem side_wv (d : Dir) (s : Bi) (v : Arr Unit) : Bi.side d (wv s v) = Bi.side d s := by cases d <;> rfl
theorem map_wv (d : Dir) (s : Bi) (v : Arr Unit) : Bi.map d (wv s v) = Bi.map d s := by cases d <;> rfl
theorem cur_wv (d : Dir) (k : Kind) (s : Bi) (v : Arr Unit) : Bi.cur d k (wv s v) = Bi.cur d k s := by
  cases d <;> cases k <;> rfl
theorem setCur_wv (d : Dir) (k : Kind) (s : Bi) (v : Arr Unit) (c : Cur) :
    Bi.setCur d k (wv s v) c = wv (Bi.setCur d k s c) v := by cases d <;> cases k <;> rfl
theorem setMap_wv (d : Dir) (s : Bi) (v : Arr Unit) (c : Mapping) :
    Bi.setMap d (wv s v) c = wv (Bi.setMap d s c) v := by cases d <;> rfl

theorem onSide_rd (d : Dir) (arr : Side → Arr α) (i : Int) :
    Bi.onSide d (rd arr i) = rd (fun self : Bi => arr (Bi.side d self)) i := by
  apply JM_ext; intro s
  simp only [Bi.onSide, rd]
  by_cases h : 0 ≤ i ∧ i < (arr (Bi.side d s)).len
  · simp only [if_pos h, Bi.setSide_self]
  · simp only [if_neg h, Bi.setSide_self]

variable {s : Bi} {d : Dir} {many : Bool}

theorem heads_rd (i : Int) : RB (Bi.onSide d (rd Side.heads i)) (rd (fun self => (Bi.side d self).heads) i) s := by
  have := RB.onSide (d := d) (m := rd Side.heads i) (s := s)
  rw [onSide_rd] at this ⊢; exact this
theorem nexts_rd (i : Int) : RB (Bi.onSide d (rd Side.nexts i)) (rd (fun self => (Bi.side d self).nexts) i) s := by
  have := RB.onSide (d := d) (m := rd Side.nexts i) (s := s)
  rw [onSide_rd] at this ⊢; exact this

theorem setEntry_rb (k : Kind) (e : Int) : RB
    (modify fun t => Bi.setCur d k t { Bi.cur d k t with entry := e })
    (modify fun self => Bi.setCur d k self { Bi.cur d k self with entry := e }) s :=
  .modify' fun v => by rw [cur_wv, setCur_wv]

theorem entryReset_rb (lk : Int → JM Bi Int) :
    RB (Bi.iterReset d .entry) (Pairs.EntryIterator.reset0 lk d) s := by
  unfold Bi.iterReset Pairs.EntryIterator.reset0
  refine .get fun v => ?_
  simp only [cur_wv, side_wv, Bool.and_eq_true, decide_eq_true_eq]
  by_cases hc : (Bi.cur d .entry s).key ≥ 0 ∧ (Bi.cur d .entry s).key < (Bi.side d s).heads.len
  · rw [if_pos hc, if_pos hc]
    simp only [bind_unit]
    exact .bind (heads_rd _) fun a t _ => setEntry_rb .entry a
  · rw [if_neg hc, if_neg hc]
    simp only [bind_unit]
    exact setEntry_rb .entry (-1)

theorem valueReset_rb (lk : Int → JM Bi Int) :
    RB (Bi.iterReset d .value) (Pairs.ValueIterator.reset0 lk d) s := by
  unfold Bi.iterReset Pairs.ValueIterator.reset0
  refine .get fun v => ?_
  simp only [cur_wv, bind_unit]
  exact .bind (heads_rd _) fun a t _ => setEntry_rb .value a

theorem entryIterator_rb (lk : Int → JM Bi Int) :
    RB (Bi.iterator d .entry) (Pairs.Mapping.entryIterator lk d) s := by
  unfold Bi.iterator Pairs.Mapping.entryIterator Pairs.EntryIterator.reset1
  simp only [bind_unit]
  refine .getR fun v => .modify (fun w => ?_) (entryReset_rb lk)
  rw [cur_wv, setCur_wv, map_wv]

theorem valueIterator_rb (lk : Int → JM Bi Int) :
    RB (Bi.iterator d .value) (Pairs.Mapping.valueIterator lk d) s := by
  unfold Bi.iterator Pairs.Mapping.valueIterator Pairs.ValueIterator.reset1
  simp only [bind_unit]
  refine .getR fun v => .modify (fun w => ?_) (valueReset_rb lk)
  rw [cur_wv, setCur_wv, map_wv]

theorem entryHasNext_rb (lk : Int → JM Bi Int) :
    RB (Bi.hasNext d .entry) (Pairs.EntryIterator.hasNext lk d) s := by
  unfold Bi.hasNext Pairs.EntryIterator.hasNext
  refine .get fun v => ?_
  simp only [cur_wv]; exact .pure

theorem valueHasNext_rb (lk : Int → JM Bi Int) :
    RB (Bi.hasNext d .value) (Pairs.ValueIterator.hasNext lk d) s := by
  unfold Bi.hasNext Pairs.ValueIterator.hasNext
  refine .get fun v => ?_
  simp only [cur_wv]; exact .pure

theorem getLeftAt_rb (many : Bool) (e : Int) :
    RB (Bi.getLeftAt e) (bif many then Pairs.ManyToMany.getLeftAt e else Pairs.OneToMany.getLeftAt e) s := by
  cases many <;> exact .bind (.onMappings (ri_keyAt _ _)) fun _ _ _ => .pure

theorem getRightAt_rb (many : Bool) (e : Int) :
    RB (Bi.getRightAt e) (bif many then Pairs.ManyToMany.getRightAt e else Pairs.OneToMany.getRightAt e) s := by
  cases many <;> exact .bind (.onMappings (ri_keyAt _ _)) fun _ _ _ => .pure

/-- The side exists in the class. -/
def Has (many : Bool) : Dir → Prop
  | .left => True
  | .right => many = true

theorem lookups_rb (hd : Has many d) (e : Int) : RB (Bi.lookupFunc d e) (lookups many d e) s := by
  cases d with
  | left =>
    have := getRightAt_rb (s := s) many e
    cases many <;> exact this
  | right =>
    have hm : many = true := hd
    subst hm
    exact getLeftAt_rb (s := s) true e

theorem lookupFunc_state (d : Dir) (e : Int) (s : Bi) : (Bi.lookupFunc d e s).state = s := by
  cases d
  · exact Bi.getRightAt_state e
  · exact Bi.getLeftAt_state e

theorem entryNext_rb (lk : Int → JM Bi Int) : RB (Bi.next d .entry) (Pairs.EntryIterator.next lk d) s := by
  unfold Bi.next Pairs.EntryIterator.next
  refine .get fun v => ?_
  simp only [cur_wv]
  show RB (Bi.onSide d (rd Side.nexts (Bi.cur d .entry s).entry) >>= _) _ s
  exact .bind (nexts_rd _) fun n t _ => .bind (setEntry_rb .entry n) fun _ _ _ => .pure

theorem valueNext_rb (hd : Has many d) : RB (Bi.next d .value) (Pairs.ValueIterator.next (lookups many d) d) s := by
  unfold Bi.next Pairs.ValueIterator.next
  refine .get fun v => ?_
  simp only [cur_wv]
  refine .bind (lookups_rb hd _) fun x t ht => ?_
  obtain rfl : t = s := by
    have := lookupFunc_state d (Bi.cur d .value s).entry s
    rw [ht] at this; exact this
  refine .getR fun w => ?_
  simp only [cur_wv]
  exact .bind (nexts_rd _) fun n t _ => .bind (setEntry_rb .value n) fun _ _ _ => .pure

/-- The loop of `forEach` collects what the model's recursion returns. -/
theorem entryLoop_rb (lk : Int → JM Bi Int) : ∀ (n fuel : Nat) (acc : List Int) (s : Bi), n ≤ fuel →
    RB (Bi.iterAll d .entry n >>= fun xs => pure (acc ++ xs)) (Pairs.EntryIterator.forEach_loop1 lk d pure fuel acc) s
  | 0, _, _, _, _ => fun _ => .inl rfl
  | n + 1, 0, _, _, h => by omega
  | n + 1, fuel + 1, acc, s, h => by
    unfold Bi.iterAll Pairs.EntryIterator.forEach_loop1
    simp only [assoc]
    refine .bind (entryHasNext_rb lk) fun b t _ => ?_
    cases b with
    | false => show RB (pure (acc ++ [])) (pure acc) t; rw [List.append_nil]; exact .pure
    | true =>
      simp only [if_true, assoc]
      refine .bind (entryNext_rb lk) fun x u _ => ?_
      have ih := entryLoop_rb lk n fuel (acc ++ [x]) u (by omega)
      have e : (Bi.iterAll d .entry n >>= fun a => pure (x :: a) >>= fun xs => pure (acc ++ xs)) =
          (Bi.iterAll d .entry n >>= fun xs => pure (acc ++ [x] ++ xs) : JM Bi (List Int)) := by
        congr 1; funext a
        show pure (acc ++ (x :: a)) = _
        simp
      rw [e]
      exact ih

theorem valueLoop_rb (hd : Has many d) : ∀ (n fuel : Nat) (acc : List Int) (s : Bi), n ≤ fuel →
    RB (Bi.iterAll d .value n >>= fun xs => pure (acc ++ xs)) (Pairs.ValueIterator.forEach_loop1 (lookups many d) d pure fuel acc) s
  | 0, _, _, _, _ => fun _ => .inl rfl
  | n + 1, 0, _, _, h => by omega
  | n + 1, fuel + 1, acc, s, h => by
    unfold Bi.iterAll Pairs.ValueIterator.forEach_loop1
    simp only [assoc]
    refine .bind (valueHasNext_rb _) fun b t _ => ?_
    cases b with
    | false => show RB (pure (acc ++ [])) (pure acc) t; rw [List.append_nil]; exact .pure
    | true =>
      simp only [if_true, assoc]
      refine .bind (valueNext_rb hd) fun x u _ => ?_
      have ih := valueLoop_rb hd n fuel (acc ++ [x]) u (by omega)
      have e : (Bi.iterAll d .value n >>= fun a => pure (x :: a) >>= fun xs => pure (acc ++ xs)) =
          (Bi.iterAll d .value n >>= fun xs => pure (acc ++ [x] ++ xs) : JM Bi (List Int)) := by
        congr 1; funext a
        show pure (acc ++ (x :: a)) = _
        simp
      rw [e]
      exact ih

theorem nil_app {σ : Type} (m : JM σ (List β)) : (m >>= fun xs => pure ([] ++ xs)) = m := by
  apply JM_ext; intro s
  rw [JM.bind_apply]; cases m s <;> rfl

theorem iterator_side {k : Kind} {t : Bi} {u : Unit} (h : Bi.iterator d k s = .ok u t) : ∀ d', Bi.side d' t = Bi.side d' s := by
  have hk : Keeps (fun t => ∀ d', Bi.side d' t = Bi.side d' s) (Bi.iterator d k) := by
    unfold Bi.iterator
    refine .bind (.modify fun t h d' => by rw [Bi.side_setCur]; exact h d') fun _ => ?_
    unfold Bi.iterReset
    refine .bind .get fun t => ?_
    have hm : ∀ e, Keeps (fun t => ∀ d', Bi.side d' t = Bi.side d' s) (modify fun t => Bi.setCur d k t { Bi.cur d k t with entry := e }) :=
      fun e => .modify fun t h d' => by rw [Bi.side_setCur]; exact h d'
    have hr : ∀ i, Keeps (fun t => ∀ d', Bi.side d' t = Bi.side d' s) (Bi.onSide d (rd Side.heads i)) := by
      intro i; rw [onSide_rd]; exact .rd i
    cases k
    · dsimp only
      split
      · exact .bind (hr _) fun _ => hm _
      · exact .bind (.pure _) fun _ => hm _
    · exact .bind (hr _) fun _ => hm _
  have := hk s fun _ => rfl
  rw [h] at this
  exact this

theorem forEachOf_entry_rb (lk : Int → JM Bi Int) {fuel : Nat} (hl : (Bi.side d s).nexts.len + 1 ≤ fuel) :
    RB (Bi.forEachOf d .entry) (Pairs.Mapping.forEachEntry lk d fuel pure) s := by
  unfold Bi.forEachOf Pairs.Mapping.forEachEntry Pairs.EntryIterator.forEach
  refine .bind (entryIterator_rb lk) fun u t ht => .getL ?_
  rw [iterator_side ht d]
  have := entryLoop_rb (d := d) lk ((Bi.side d s).nexts.len + 1) fuel [] t hl
  rw [nil_app] at this
  simp only [List.nil_append]
  exact .bind_pureR this

theorem forEachOf_value_rb (hd : Has many d) {fuel : Nat} (hl : (Bi.side d s).nexts.len + 1 ≤ fuel) :
    RB (Bi.forEachOf d .value) (Pairs.Mapping.forEachValue (lookups many d) d fuel pure) s := by
  unfold Bi.forEachOf Pairs.Mapping.forEachValue Pairs.ValueIterator.forEach
  refine .bind (valueIterator_rb _) fun u t ht => .getL ?_
  rw [iterator_side ht d]
  have := valueLoop_rb hd ((Bi.side d s).nexts.len + 1) fuel [] t hl
  rw [nil_app] at this
  simp only [List.nil_append]
  exact .bind_pureR this

end Verif.Link.BiL
