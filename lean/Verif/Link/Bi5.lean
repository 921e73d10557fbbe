import Verif.Link.Bi4
/-! The two-sided collections: one call, histories. -/
set_option linter.unusedSectionVars false
namespace Verif.Link.BiL
open Verif Verif.Gen BiSpec
variable {α β γ : Type} {s : Bi} {i : Ideal} {d : Dir} {many : Bool}

theorem insertRight_rb (hm : s.many = many) (r e : Int) :
    RB (Bi.insertRight r e) (bif many then Pairs.ManyToMany.insertRight r e else Pairs.OneToMany.insertRight r e) s := by
  unfold Bi.insertRight
  refine .getL ?_
  rw [hm]
  cases many with
  | false => exact .pure
  | true =>
    show RB (Bi.onSide .right (Side.insertEntry r e)) (Pairs.ManyToMany.insertRight r e) s
    unfold Pairs.ManyToMany.insertRight
    rw [bind_unit, insertEntry_eq]
    exact .onSide

theorem removeRight_rb (hm : s.many = many) (r e : Int) :
    RB (Bi.removeRight r e) (bif many then Pairs.ManyToMany.removeRight r e else Pairs.OneToMany.removeRight r e) s := by
  unfold Bi.removeRight
  refine .getL ?_
  rw [hm]
  cases many with
  | false => exact .pure
  | true =>
    show RB (Bi.onSide .right (Side.removeEntry r e)) (Pairs.ManyToMany.removeRight r e) s
    unfold Pairs.ManyToMany.removeRight
    rw [bind_unit, removeEntry_eq]
    exact .onSide

theorem insertLeft_rb (many : Bool) (l e : Int) :
    RB (Bi.insertLeft l e) (bif many then Pairs.ManyToMany.insertLeft l e else Pairs.OneToMany.insertLeft l e) s := by
  have : (Pairs.ManyToMany.insertLeft l e = Bi.insertLeft l e) ∧ (Pairs.OneToMany.insertLeft l e = Bi.insertLeft l e) := by
    unfold Pairs.ManyToMany.insertLeft Pairs.OneToMany.insertLeft Bi.insertLeft
    rw [bind_unit, insertEntry_eq]; exact ⟨rfl, rfl⟩
  rw [this.1, this.2, Bool.cond_self]
  exact .onSide

theorem removeLeft_rb (many : Bool) (l e : Int) :
    RB (Bi.removeLeft l e) (bif many then Pairs.ManyToMany.removeLeft l e else Pairs.OneToMany.removeLeft l e) s := by
  have : (Pairs.ManyToMany.removeLeft l e = Bi.removeLeft l e) ∧ (Pairs.OneToMany.removeLeft l e = Bi.removeLeft l e) := by
    unfold Pairs.ManyToMany.removeLeft Pairs.OneToMany.removeLeft Bi.removeLeft
    rw [bind_unit, removeEntry_eq]; exact ⟨rfl, rfl⟩
  rw [this.1, this.2, Bool.cond_self]
  exact .onSide

/-- calls on a half leave the set and the class alone -/
theorem onSide_mappings (d : Dir) (m : JM Side α) (s : Bi) :
    (Bi.onSide d m s).state.mappings = s.mappings ∧ (Bi.onSide d m s).state.many = s.many := by
  simp only [Bi.onSide]
  cases m (Bi.side d s) <;> exact ⟨Bi.mappings_setSide _ _ _, Bi.many_setSide _ _ _⟩

theorem onMappings_many (m : JM LIx α) (s : Bi) : (Bi.onMappings m s).state.many = s.many := by
  simp only [Bi.onMappings]
  cases m s.mappings <;> rfl

theorem removeRight_mappings (r e : Int) (s : Bi) : (Bi.removeRight r e s).state.mappings = s.mappings := by
  unfold Bi.removeRight
  rw [JM.bind_ok (JM.get_apply _), when_apply]
  split
  · exact (onSide_mappings _ _ _).1
  · rfl

/-- the edits of the two halves, then a call on the set -/
theorem edit_rb {m g : JM LIx Unit} (hm : s.many = many) (l r e : Int) (h : RI m g s.mappings) (x : α) :
    RB (Bi.removeLeft l e >>= fun _ => Bi.removeRight r e >>= fun _ => Bi.onMappings m >>= fun _ => pure x)
      ((bif many then Pairs.ManyToMany.removeLeft l e else Pairs.OneToMany.removeLeft l e) >>= fun _ =>
        (bif many then Pairs.ManyToMany.removeRight r e else Pairs.OneToMany.removeRight r e) >>= fun _ =>
        Bi.onMappings g >>= fun _ => pure x) s := by
  refine .bind (removeLeft_rb many l e) fun _ t ht => ?_
  have h1 := onSide_mappings .left (Side.removeEntry l e) s
  rw [show Bi.onSide .left (Side.removeEntry l e) s = _ from ht] at h1
  refine .bind (removeRight_rb (by rw [← hm]; exact h1.2) r e) fun _ u hu => ?_
  have h2 := removeRight_mappings r e t
  rw [hu] at h2
  have e : u.mappings = s.mappings := h2.trans h1.1
  exact .bind (.onMappings (by rw [e]; exact h)) fun _ _ _ => .pure

theorem fine_of (h : Bi.Inv s i) (hb : Bounds s) : Fine s.mappings := ⟨⟨_, _, h.idx⟩, hb.1⟩

variable (fuel : Nat) (hf : 2 ^ 31 ≤ fuel)
include hf

theorem put_rb (h : Bi.Inv s i) (hb : Bounds s) (hm : s.many = many) (l r : Int) :
    RB (Bi.put l r) (bif many then Pairs.ManyToMany.put fuel l r else Pairs.OneToMany.put fuel l r) s := by
  have key : RB (Bi.put l r) (do
      let before ← Bi.onMappings KeyIndexedSet.size
      let entry ← Bi.onMappings (KeyIndexedSet.add fuel (Bi.pack l r))
      let after ← Bi.onMappings KeyIndexedSet.size
      if (decide (before = after)) = true then pure entry
      else do
        (bif many then Pairs.ManyToMany.insertLeft l entry else Pairs.OneToMany.insertLeft l entry)
        (bif many then Pairs.ManyToMany.insertRight r entry else Pairs.OneToMany.insertRight r entry)
        pure entry) s := by
    unfold Bi.put
    refine .bind (.onMappings (ri_size _)) fun before t ht => ?_
    obtain ⟨rfl, rfl⟩ : s.mappings.size = before ∧ s = t := by
      injection ht with h1 h2; exact ⟨h1, h2⟩
    refine .bind (.onMappings (ri_add fuel hf (fine_of h hb) _)) fun entry t ht => ?_
    have hm1 := onMappings_many (Index.add (Bi.pack l r)) s
    rw [ht] at hm1
    refine .bind (.onMappings (ri_size _)) fun aft u hu => ?_
    obtain ⟨rfl, rfl⟩ : aft = t.mappings.size ∧ u = t := by
      injection hu with h1 h2; exact ⟨h1.symm, h2.symm⟩
    refine .ite (by simp) (fun _ => .pure) fun _ => ?_
    refine .bind (insertLeft_rb many l entry) fun _ v hv => ?_
    have h1 := onSide_mappings .left (Side.insertEntry l entry) u
    rw [show Bi.onSide .left (Side.insertEntry l entry) u = _ from hv] at h1
    exact .bind (insertRight_rb (h1.2.trans (hm1.trans hm)) r entry) fun _ _ _ => .pure
  cases many <;> exact key

theorem remove_rb (h : Bi.Inv s i) (hb : Bounds s) (hm : s.many = many) {l r : Int} (hl : IsInt l) (hr : IsInt r) :
    RB (Bi.remove l r) (bif many then Pairs.ManyToMany.remove fuel l r else Pairs.OneToMany.remove fuel l r) s := by
  have key : RB (Bi.remove l r) (do
      let entry ← Bi.onMappings (KeyIndexedSet.lookupEntry fuel (Bi.pack l r))
      if (decide (entry = (-1))) = true then pure (-1)
      else do
        (bif many then Pairs.ManyToMany.removeLeft l entry else Pairs.OneToMany.removeLeft l entry)
        (bif many then Pairs.ManyToMany.removeRight r entry else Pairs.OneToMany.removeRight r entry)
        Bi.onMappings (KeyIndexedSet.removeAt fuel entry)
        pure entry) s := by
    unfold Bi.remove
    refine .bind (.onMappings (ri_lookup fuel hf (fine_of h hb) _)) fun entry t ht => ?_
    rw [Bi.lookup_eq h hl hr] at ht
    injection ht with h1 h2
    subst h2
    refine .ite (by simp) (fun _ => .pure) fun hne => ?_
    have hrange : -2 ^ 31 ≤ entry ∧ entry < 2 ^ 31 := by
      cases hfd : i.find l r with
      | none => rw [hfd] at h1; exact absurd h1.symm hne
      | some a =>
        rw [hfd] at h1
        have := Bi.key_at h (.inl (Bi.find_some hfd).1)
        have c := h.idx.klen; have c2 := h.idx.cap_pos
        simp only at h1
        omega
    exact edit_rb hm l r entry (ri_removeAt fuel hf (fine_of h hb) hrange) entry
  cases many <;> exact key

theorem live_range (h : Bi.Inv s i) {e : Int} (he : ∃ a ∈ i.assocs, a.entry = e) : -2 ^ 31 ≤ e ∧ e < 2 ^ 31 := by
  obtain ⟨a, ha, rfl⟩ := he
  have := Bi.key_at h (.inl ha)
  have c := h.idx.klen; have c2 := h.idx.cap_pos
  omega

theorem removeAt_rb (h : Bi.Inv s i) (hb : Bounds s) (hm : s.many = many) {e : Int} (he : ∃ a ∈ i.assocs, a.entry = e) :
    RB (Bi.removeAt e) (bif many then Pairs.ManyToMany.removeAt fuel e else Pairs.OneToMany.removeAt fuel e) s := by
  have key : RB (Bi.removeAt e) (do
      let key ← Bi.onMappings (KeyIndexedSet.getKeyAt e)
      (bif many then Pairs.ManyToMany.removeLeft ((Pack.unpackHiInt key).toInt) e else Pairs.OneToMany.removeLeft ((Pack.unpackHiInt key).toInt) e)
      (bif many then Pairs.ManyToMany.removeRight ((Pack.unpackLoInt key).toInt) e else Pairs.OneToMany.removeRight ((Pack.unpackLoInt key).toInt) e)
      Bi.onMappings (KeyIndexedSet.removeAt fuel e)
      pure e) s := by
    unfold Bi.removeAt
    refine .bind (.onMappings (ri_keyAt _ _)) fun key t ht => ?_
    obtain rfl : t = s := by have := Bi.keyAt_state (s := s) e; rw [ht] at this; exact this
    exact edit_rb hm _ _ e (ri_removeAt fuel hf (fine_of h hb) (live_range fuel hf h he)) e
  cases many <;> exact key

theorem reserve_rb (h : Bi.Inv s i) (hb : Bounds s) (hm : s.many = many) (e : Int) :
    RB (Bi.removeAtAndReserve e)
      (bif many then Pairs.ManyToMany.removeAtAndReserve fuel e else Pairs.OneToMany.removeAtAndReserve fuel e) s := by
  have key : RB (Bi.removeAtAndReserve e) (do
      let key ← Bi.onMappings (KeyIndexedSet.getKeyAt e)
      Bi.onMappings (KeyIndexedSet.removeAtAndReserve fuel e)
      (bif many then Pairs.ManyToMany.removeLeft ((Pack.unpackHiInt key).toInt) e else Pairs.OneToMany.removeLeft ((Pack.unpackHiInt key).toInt) e)
      (bif many then Pairs.ManyToMany.removeRight ((Pack.unpackLoInt key).toInt) e else Pairs.OneToMany.removeRight ((Pack.unpackLoInt key).toInt) e)) s := by
    unfold Bi.removeAtAndReserve
    refine .bind (.onMappings (ri_keyAt _ _)) fun key t ht => ?_
    obtain rfl : t = s := by have := Bi.keyAt_state (s := s) e; rw [ht] at this; exact this
    refine .bind (.onMappings (ri_reserve fuel hf (fine_of h hb) e)) fun _ u hu => ?_
    have hm1 := onMappings_many (Index.removeAtAndReserve e) t
    rw [hu] at hm1
    refine .bind (removeLeft_rb many _ e) fun _ v hv => ?_
    have h1 := onSide_mappings .left (Side.removeEntry (Pack.unpackHiInt key).toInt e) u
    rw [show Bi.onSide .left (Side.removeEntry (Pack.unpackHiInt key).toInt e) u = _ from hv] at h1
    exact removeRight_rb (h1.2.trans (hm1.trans hm)) _ e
  cases many
  · show RB _ (Pairs.OneToMany.removeAtAndReserve fuel e) s
    unfold Pairs.OneToMany.removeAtAndReserve
    simp only [bind_unit]
    exact key
  · show RB _ (Pairs.ManyToMany.removeAtAndReserve fuel e) s
    unfold Pairs.ManyToMany.removeAtAndReserve
    simp only [bind_unit]
    exact key

omit hf in
theorem has_of (hm : i.many = many) (h : i.has d) : Has many d := by
  cases d
  · trivial
  · exact hm ▸ h

/-- One call of the generated classes. -/
theorem step_rb (h : Bi.Inv s i) (hb : Bounds s) (hm : s.many = many) (o : Bi.Op) (hg : Guard o i) :
    RB (Bi.step o) (step many fuel o) s := by
  have hfine := fine_of h hb
  have him : i.many = many := h.many.symm.trans hm
  have hlen : ∀ d, (Bi.side d s).nexts.len + 1 ≤ fuel := fun d => by have := hb.2 d; omega
  cases o with
  | put l r => exact .bind (put_rb fuel hf h hb hm l r) fun _ _ _ => .pure
  | remove l r => exact .bind (remove_rb fuel hf h hb hm hg.1 hg.2.1) fun _ _ _ => .pure
  | removeAt e =>
    obtain ⟨a, ha, he, _⟩ := hg
    exact .bind (removeAt_rb fuel hf h hb hm ⟨a, ha, he⟩) fun _ _ _ => .pure
  | removeAtAndReserve e => exact .bind (reserve_rb fuel hf h hb hm e) fun _ _ _ => .pure
  | freeReservedEntry e =>
    refine .bind ?_ fun _ _ _ => .pure
    have := RB.onMappings (s := s) (ri_free fuel hf hfine e)
    cases many
    · exact .unitR this
    · exact .unitR this
  | contains l r =>
    refine .bind ?_ fun _ _ _ => .pure
    have := RB.onMappings (s := s) (ri_contains fuel hf hfine (Bi.pack l r))
    cases many <;> exact this
  | lookupEntry l r =>
    refine .bind ?_ fun _ _ _ => .pure
    have := RB.onMappings (s := s) (ri_lookup fuel hf hfine (Bi.pack l r))
    cases many <;> exact this
  | size =>
    refine .bind ?_ fun _ _ _ => .pure
    have := RB.onMappings (s := s) (ri_size s.mappings)
    cases many <;> exact this
  | getLeftAt e => exact .bind (getLeftAt_rb many e) fun _ _ _ => .pure
  | getRightAt e => exact .bind (getRightAt_rb many e) fun _ _ _ => .pure
  | forEachEntry =>
    refine .bind ?_ fun _ _ _ => .pure
    have := RB.onMappings (s := s) (ri_forEachEntry fuel hf hfine)
    rw [← walk_eq] at this
    cases many
    · show RB _ (Pairs.OneToMany.forEachEntry fuel pure) s
      unfold Pairs.OneToMany.forEachEntry
      exact .bind_pureR this
    · show RB _ (Pairs.ManyToMany.forEachEntry fuel pure) s
      unfold Pairs.ManyToMany.forEachEntry
      exact .bind_pureR this
  | withKey d key =>
    have hk : RB (Bi.withKey d key) (modify fun self => Bi.setMap d self { Bi.map d self with key := key }) s :=
      .modify' fun v => by rw [map_wv, setMap_wv]
    cases d with
    | left =>
      refine .bind ?_ fun _ _ _ => .pure
      cases many
      · exact .unitR (.unitR hk)
      · exact .unitR (.unitR hk)
    | right =>
      have hmm : many = true := him ▸ hg
      subst hmm
      exact .bind (.unitR (.unitR hk)) fun _ _ _ => .pure
  | count d =>
    refine .bind ?_ fun _ _ _ => .pure
    unfold Bi.count Pairs.Mapping.count
    refine .get fun v => ?_
    rw [map_wv, count_eq]
    exact .onSide
  | forEachOf d k =>
    cases k
    · exact .bind (forEachOf_entry_rb _ (hlen d)) fun _ _ _ => .pure
    · exact .bind (forEachOf_value_rb (has_of him hg) (hlen d)) fun _ _ _ => .pure
  | iterator d k =>
    cases k
    · exact .bind (entryIterator_rb _) fun _ _ _ => .pure
    · exact .bind (valueIterator_rb _) fun _ _ _ => .pure
  | iterReset d k =>
    cases k
    · exact .bind (entryReset_rb _) fun _ _ _ => .pure
    · exact .bind (valueReset_rb _) fun _ _ _ => .pure
  | hasNext d k =>
    cases k
    · exact .bind (entryHasNext_rb _) fun _ _ _ => .pure
    · exact .bind (valueHasNext_rb _) fun _ _ _ => .pure
  | next d k =>
    cases k
    · exact .bind (entryNext_rb _) fun _ _ _ => .pure
    · exact .bind (valueNext_rb (has_of him hg.1)) fun _ _ _ => .pure

end Verif.Link.BiL
