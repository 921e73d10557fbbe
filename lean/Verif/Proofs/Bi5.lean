import Verif.Proofs.Bi4
/-! Proofs about the two-sided collections, part 5: histories, small collections, failures. -/
set_option linter.unusedSectionVars false
namespace Verif
namespace Bi
open BiSpec
variable {s : Bi} {i : Ideal}

theorem reach_inv (h : Reach s i) : Inv s i := by
  induction h with
  | new h => exact new_inv h
  | call o _ hg ih => exact (step_spec ih o hg).2

theorem legal_of_inv : ∀ (os : List Op) (s : Bi) (i : Ideal), Inv s i → Legal i os (runM step s os).1
  | [], _, _, _ => trivial
  | o :: os, s, i, h => by
    intro hg
    obtain ⟨h1, h2⟩ := step_spec h o hg
    exact ⟨h1, legal_of_inv os _ _ h2⟩

/-! ### small collections -/

/-- Everything handed out so far lies within the initial capacity. -/
def Roomy (cap : Int) (i : Ideal) : Prop := i.next ≤ cap ∧ ∀ d, cap ≤ i.room d

theorem in_use (h : Inv s i) :
    (i.assocs.length : Int) + i.reserved.length + i.free.length = i.next := by
  have h1 := h.idx.perm.length_eq
  have h0 := h.idx.next0
  simp [toAbs, IndexSpec.Abs.live, IndexSpec.Abs.held] at h1 h0
  omega

theorem entry_range (h : Inv s i) {e : Int} (he : e ∈ i.live ∨ e ∈ i.free) : 0 ≤ e ∧ e < i.next := by
  have := (h.idx.mem_range e).1
  rw [live_toAbs] at this
  rcases he with he | he
  · exact this (.inl he)
  · exact this (.inr (.inr he))

theorem roomy_covered (h : Inv s i) {cap : Int} (hr : Roomy cap i) (d : Dir) (k : Int) :
    i.Covered d k := by
  intro e he
  have hm : e ∈ i.live := by
    have : e ∈ i.entriesOf d k := by rw [he]; simp
    obtain ⟨a, ha, rfl⟩ := List.mem_map.1 this
    exact List.mem_map_of_mem (of_mem ha).1
  have := entry_range h (.inl hm)
  have := hr.1
  have := hr.2 d
  omega

theorem small_guard (h : Inv s i) {cap : Int} (hr : Roomy cap i) {o : Op} (hg : Small cap o i) :
    Guard o i := by
  have hcov := roomy_covered h hr
  have hrem : ∀ a : Assoc, Removable i a := fun a d _ => hcov d _
  cases o with
  | put l r =>
    refine ⟨hg.1, hg.2.1, fun hf => ?_⟩
    obtain ⟨h1, h2, h3⟩ := hg.2.2 hf
    refine ⟨fun d hd => ⟨(h1 d hd).1, (h1 d hd).2, ?_⟩, h3⟩
    intro x hx
    have := hcov d _ x hx
    omega
  | remove l r => exact ⟨hg.1, hg.2, fun a _ => hrem a⟩
  | removeAt e =>
    obtain ⟨a, ha, rfl⟩ := List.mem_map.1 hg
    exact ⟨a, ha, rfl, hrem a⟩
  | removeAtAndReserve e =>
    obtain ⟨a, ha, rfl⟩ := List.mem_map.1 hg
    exact ⟨a, ha, rfl, hrem a⟩
  | _ => exact hg

theorem roomy_after (h : Inv s i) {cap : Int} (hr : Roomy cap i) {o : Op} (hg : Small cap o i)
    {out : Except Err Out} (hok : Ok o out i) : Roomy cap (after o out i) := by
  cases o with
  | put l r =>
    cases hf : i.find l r with
    | some a => simp only [after, hf]; exact hr
    | none =>
      simp only [Ok, hf] at hok
      subst hok
      simp only [after, hf]
      obtain ⟨h1, h2, h3⟩ := hg.2.2 hf
      have hu := in_use h
      refine ⟨?_, fun d => ?_⟩
      · show max i.next (i.alloc + 1) ≤ cap
        have := hr.1
        unfold Ideal.alloc
        cases hfree : i.free with
        | nil => rw [hfree] at hu; simp at hu ⊢; omega
        | cons x t =>
          have := entry_range h (e := x) (.inr (by rw [hfree]; simp))
          simp only
          omega
      · have := hr.2 d
        show cap ≤ if _ then _ else _
        split
        · exact this
        · exact Int.le_trans this (Int.le_max_left _ _)
  | remove l r =>
    cases hf : i.find l r <;> simp only [after, hf] <;> exact hr
  | next d k =>
    simp only [after]
    split <;> exact hr
  | _ => exact hr

theorem exact_of_ok (h : Inv s i) {cap : Int} (hr : Roomy cap i) {o : Op} {out : Except Err Out}
    (hok : Ok o out i) : Exact o out i := by
  have hcov := roomy_covered h hr
  cases o with
  | forEachOf d k => exact hok.1 (hcov _ _)
  | next d k =>
    simp only [Ok, Exact] at hok ⊢
    cases hrest : (i.cursor d k).rest with
    | none => rw [hrest] at hok; exact hok
    | some l =>
      rw [hrest] at hok
      cases l with
      | nil => exact hok
      | cons e t =>
        obtain ⟨a, h1, h2, h3, h4, _⟩ := hok
        exact ⟨a, h1, h2, h3, h4 (hcov _ _)⟩
  | _ => exact hok

theorem new_roomy {many : Bool} {il ir cap : Int} {counts : Bool} (h : 0 ≤ cap) :
    Roomy cap (start many il ir cap counts) := ⟨h, fun _ => Int.le_refl _⟩

theorem new_cap {many : Bool} {il ir ic : Int} {counts : Bool} (h : Bi.new many il ir ic counts = .ok s) :
    0 ≤ ic := by
  unfold Bi.new at h
  cases h1 : Index.new (V := Unit) KeyTypes.longHash KeyTypes.longEq ic 3 4 with
  | error e => rw [h1] at h; cases h
  | ok m =>
    rw [h1] at h
    by_contra hc
    have : Side.new il ic counts = .error .negativeArraySize := by
      unfold Side.new; rw [if_pos (by omega)]
    simp only [bind, Except.bind, this] at h
    cases h

theorem calm_inv {cap : Int} (h : Calm cap s i) : Inv s i ∧ Roomy cap i ∧ Reach s i := by
  induction h with
  | new h => exact ⟨new_inv h, new_roomy (new_cap h), .new h⟩
  | call o _ hg ih =>
    obtain ⟨h1, h2, h3⟩ := ih
    have hg' := small_guard h1 h2 hg
    obtain ⟨h4, h5⟩ := step_spec h1 o hg'
    exact ⟨h5, roomy_after h1 h2 hg h4, .call o h3 hg'⟩

theorem legalSmall_of_inv {cap : Int} : ∀ (os : List Op) (s : Bi) (i : Ideal), Inv s i → Roomy cap i →
    LegalSmall cap i os (runM step s os).1
  | [], _, _, _, _ => trivial
  | o :: os, s, i, h, hr => by
    intro hg
    have hg' := small_guard h hr hg
    obtain ⟨h1, h2⟩ := step_spec h o hg'
    exact ⟨exact_of_ok h hr h1, legalSmall_of_inv os _ _ h2 (roomy_after h hr hg h1)⟩

/-! ### what goes wrong -/

theorem contains_spec (h : Inv s i) {l r : Int} (hl : IsInt l) (hr : IsInt r) :
    (step (.contains l r) s).out = .ok (.bool (i.find l r).isSome) :=
  (step_spec h (.contains l r) ⟨hl, hr⟩).1

/-- A new pair with a negative left key is added to the set of pairs before the walk over the left
keys fails. -/
theorem put_negative (h : Inv s i) {l r : Int} (hl : IsInt l) (hr : IsInt r) (hneg : l < 0)
    (hf : i.find l r = none) (hlen : i.assocs.length + i.reserved.length + 29 < 2 ^ 29) :
    (step (.put l r) s).out = .error .indexOutOfBounds ∧
    (step .size (step (.put l r) s).state).out = .ok (.int (i.assocs.length + 1)) ∧
    (step (.contains l r) (step (.put l r) s).state).out = .ok (.bool true) := by
  have hfa : (toAbs i).find (pack l r) = none := by rw [find_toAbs h.ints hl hr, hf]; rfl
  obtain ⟨e, m, F', a1, a2, _, _, a5, a6, _⟩ :=
    Index.add_absent h.idx hfa coherent (by simpa [toAbs] using hlen)
  have hsz : m.size = s.mappings.size + 1 := by
    rw [a2.size, h.idx.size]
    simp [toAbs, IndexSpec.Abs.insert]
  obtain ⟨t, ht⟩ : ∃ t, Side.insertEntry l e s.left = .err .indexOutOfBounds t := by
    have hee : ∀ {σ : Type} (a : Arr Int) (x : Int) (u : σ), Verif.ensureEntry a l x u = .ok a u := by
      intro σ a x u
      unfold Verif.ensureEntry ensureSize
      unfold IsInt at hl
      rw [i32_of_range (by omega), if_neg (by omega)]; rfl
    have hrd : ∀ u : Side, rd Side.heads l u = .err .indexOutOfBounds u := by
      intro u; unfold rd; simp only; rw [if_neg (by omega)]
    have hek : Side.ensureKey l s.left = .ok () s.left := by
      unfold Side.ensureKey
      rw [JM.bind_ok (JM.get_apply _), JM.bind_ok (hee _ _ _), JM.bind_ok (JM.modify_apply _ _)]
      cases hc : s.left.count with
      | none =>
        simp only
        rw [JM.pure_apply, ← hc]
      | some c =>
        simp only
        rw [JM.bind_ok (hee _ _ _), JM.modify_apply, ← hc]
    refine ⟨s.left, ?_⟩
    unfold Side.insertEntry
    rw [JM.bind_ok hek, JM.bind_err (hrd _)]
  have hput : step (.put l r) s = .err .indexOutOfBounds { s with mappings := m, left := t } := by
    have : put l r s = .err .indexOutOfBounds { s with mappings := m, left := t } := by
      unfold put
      rw [JM.bind_ok getSize_ok, JM.bind_ok (onMappings_ok a1), JM.bind_ok getSize_ok,
        if_neg (by simp only; omega)]
      have hleft : insertLeft l e { s with mappings := m } =
          .err .indexOutOfBounds { s with mappings := m, left := t } :=
        onSide_err (s := { s with mappings := m }) (d := .left) ht
      rw [JM.bind_err hleft]
    simp only [step]
    rw [JM.bind_err this]
  rw [hput]
  refine ⟨rfl, ?_, ?_⟩
  · have := size_eq h
    simp only [step, getSize, Res.state_err]
    rw [JM.bind_ok getSize_ok]
    show Except.ok (Out.int m.size) = _
    rw [hsz, this]
  · have h1 := Index.lookupEntry_spec a2 (pack l r)
    have h2 := Index.entryOf_eq_neg a2 (pack l r)
    have h3 : ((toAbs i).insert e (pack l r) default).find (pack l r) ≠ none := by
      unfold IndexSpec.Abs.find IndexSpec.Abs.insert
      rw [List.find?_cons_of_pos]
      · simp
      · simp [toAbs, KeyTypes.longEq]
    have hc : contains l r { s with mappings := m, left := t } =
        .ok true { s with mappings := m, left := t } := by
      unfold contains Index.containsKey
      rw [onMappings_ok (t := m) (a := true)]
      show (Index.lookupEntry (pack l r) >>= _) m = _
      rw [JM.bind_ok h1, JM.pure_apply]
      congr 1
      simpa using fun hh => h3 (h2.1 hh)
    simp only [step, Res.state_err]
    rw [JM.bind_ok hc]; rfl

/-- A lone association beyond the cells of its side cannot be removed, and walking its key throws. -/
theorem lone_fails (h : Inv s i) {l r : Int} {a : Assoc} (hl : IsInt l) (hr : IsInt r)
    (hf : i.find l r = some a) (hone : i.entriesOf .left l = [a.entry])
    (hlen : (side .left s).nexts.len ≤ a.entry) :
    step (.remove l r) s = .err .indexOutOfBounds s ∧
    step (.removeAt a.entry) s = .err .indexOutOfBounds s := by
  obtain ⟨ha, hal, har⟩ := find_some hf
  have hS := h.sides .left trivial
  have hkey : (l, a.entry) ∈ pairs .left i := by
    refine List.mem_map.2 ⟨a, ha, ?_⟩
    rw [← hal]; rfl
  have hrange := hS.ks _ hkey
  simp only at hrange
  have hsp := hS.sp
  have hrem : Side.removeEntry l a.entry (side .left s) = .err .indexOutOfBounds (side .left s) := by
    have hh := hS.hd l hrange.1 (by omega)
    rw [ent_pairs, hone] at hh
    unfold Side.removeEntry
    rw [JM.bind_ok (rd_ok _ ⟨hrange.1, by omega⟩), hh]
    simp only [List.headD_cons, if_true]
    have : rd Side.nexts a.entry (side .left s) = .err .indexOutOfBounds (side .left s) := by
      unfold rd; simp only; rw [if_neg (by omega)]
    rw [JM.bind_err this]
  have hrl : removeLeft l a.entry s = .err .indexOutOfBounds s := by
    unfold removeLeft
    rw [onSide_err hrem, setSide_self]
  constructor
  · have : remove l r s = .err .indexOutOfBounds s := by
      unfold remove
      rw [JM.bind_ok (lookup_eq h hl hr), hf]
      simp only
      have := (key_at h (.inl ha)).1
      rw [if_neg (by omega), JM.bind_err hrl]
    simp only [step]; rw [JM.bind_err this]
  · have hk := key_at h (.inl ha)
    have hk' : onMappings (Index.getKeyAt a.entry) s = .ok (pack a.left a.right) s := by
      rw [onMappings_ok (t := s.mappings) (a := pack a.left a.right)]
      unfold Index.getKeyAt
      rw [rd_ok _ ⟨hk.1, hk.2.1⟩, hk.2.2]
    have : removeAt a.entry s = .err .indexOutOfBounds s := by
      unfold removeAt
      rw [JM.bind_ok hk', unpackHi a.right (h.ints a (.inl ha)).1, hal, JM.bind_err hrl]
    simp only [step]; rw [JM.bind_err this]

/-- What `m` puts of `(0,0), (1,1), ...` give in a collection with capacity `n`. -/
structure Singles (n m : Nat) (s : Bi) (i : Ideal) : Prop where
  inv : Inv s i
  free : i.free = []
  res : i.reserved = []
  next : i.next = m
  len : i.assocs.length = m
  form : ∀ a ∈ i.assocs, a.entry = a.left ∧ a.right = a.left ∧ a.left < m
  last : 0 < m → (⟨m - 1, m - 1, m - 1⟩ : Assoc) ∈ i.assocs
  cells : (side .left s).nexts.len = n

theorem singles_step {n m : Nat} (h : Singles n m s i) (hm : m + 29 < 2 ^ 29) :
    ∃ i', Singles n (m + 1) (step (.put m m) s).state i' := by
  have hno : ∀ a ∈ i.assocs, ∀ d : Dir, a.key d ≠ m := by
    intro a ha d
    have := h.form a ha
    cases d <;> simp only [Assoc.key] <;> omega
  have hf : i.find m m = none := by
    unfold Ideal.find
    rw [List.find?_eq_none]
    intro a ha
    have := hno a ha .left
    simp only [Assoc.key] at this
    simp [this]
  have hof : ∀ d, i.entriesOf d m = [] := by
    intro d
    unfold Ideal.entriesOf Ideal.of
    rw [List.map_eq_nil_iff, List.filter_eq_nil_iff]
    intro a ha
    simpa using hno a ha d
  have hal : i.alloc = m := by unfold Ideal.alloc; rw [h.free]; exact h.next
  have hint : IsInt m := by unfold IsInt; omega
  have hg : Guard (.put m m) i := by
    refine ⟨hint, hint, fun _ => ⟨?_, by rw [h.len, h.res]; simpa using hm⟩⟩
    intro d _
    have hk : Assoc.key d ⟨0, m, m⟩ = m := by cases d <;> rfl
    rw [hk]
    refine ⟨by omega, by omega, ?_⟩
    intro x hx
    rw [hof d] at hx; simp at hx
  obtain ⟨s', h1, h2, h3⟩ := put_absent h.inv hf hg
  have hr : step (.put m m) s = .ok (.int i.alloc) s' := by
    simp only [step]; rw [JM.bind_ok h1]; rfl
  rw [hr, hal] at *
  refine ⟨i.insert m m m, ?_⟩
  refine { inv := h2, free := ?_, res := h.res, next := ?_, len := ?_, form := ?_, last := ?_, cells := ?_ }
  · show i.free.filter _ = []; rw [h.free]; rfl
  · show max i.next _ = _; rw [h.next]; push_cast; omega
  · show (_ :: i.assocs).length = _; simp [h.len]
  · intro a ha
    rcases List.mem_cons.1 ha with rfl | ha
    · simp; omega
    · have := h.form a ha; push_cast; omega
  · intro _
    show _ ∈ _ :: i.assocs
    push_cast
    simp
  · simp only [Res.state_ok]
    rw [h3 (hof .left)]; exact h.cells

theorem new_left {many : Bool} {il ir ic : Int} {counts : Bool}
    (h : Bi.new many il ir ic counts = .ok s) : Side.new il ic counts = .ok s.left := by
  unfold Bi.new at h
  cases h1 : Index.new (V := Unit) KeyTypes.longHash KeyTypes.longEq ic 3 4 with
  | error e => rw [h1] at h; cases h
  | ok m =>
    rw [h1] at h
    cases h2 : Side.new il ic counts with
    | error e => rw [h2] at h; cases h
    | ok x =>
      rw [h2] at h
      simp only [bind, Except.bind] at h
      split at h
      · cases hy : Side.new ir ic counts with
        | error e => rw [hy] at h; cases h
        | ok y =>
          rw [hy] at h
          simp only [pure, Except.pure, Except.ok.injEq] at h
          subst h; rfl
      · cases hy : Side.new 0 0 false with
        | error e => rw [hy] at h; cases h
        | ok y =>
          rw [hy] at h
          simp only [pure, Except.pure, Except.ok.injEq] at h
          subst h; rfl

theorem new_heads {many : Bool} {il ir ic : Int} {counts : Bool}
    (h : Bi.new many il ir ic counts = .ok s) : ((side .left s).heads.len : Int) = il := by
  have h2 := new_left h
  unfold Side.new at h2
  split at h2
  · simp at h2
  · rename_i hc
    simp only [Except.ok.injEq] at h2
    show (s.left.heads.len : Int) = il
    rw [← h2]
    simp [Arr.create]
    omega

theorem new_singles {many : Bool} {il ir : Int} {n : Nat} {counts : Bool}
    (h : Bi.new many il ir n counts = .ok s) : Singles n 0 s (start many il ir n counts) := by
  refine { inv := new_inv h, free := rfl, res := rfl, next := rfl, len := rfl, form := ?_, last := ?_, cells := ?_ }
  · intro a ha; simp [start] at ha
  · omega
  · have h2 := new_left h
    unfold Side.new at h2
    split at h2
    · simp at h2
    · simp only [Except.ok.injEq] at h2
      show s.left.nexts.len = n
      rw [← h2]
      simp [Arr.create]

theorem runM_append {σ op β : Type} (st : op → JM σ β) : ∀ (a b : List op) (s : σ),
    (runM st s (a ++ b)).2 = (runM st (runM st s a).2 b).2
  | [], _, _ => rfl
  | o :: a, b, s => by simp only [List.cons_append, runM]; exact runM_append st a b _

theorem run_singles {many : Bool} {il ir : Int} {n : Nat} {counts : Bool}
    (h : Bi.new many il ir n counts = .ok s) : ∀ m : Nat, m + 28 < 2 ^ 29 →
    ∃ i, Singles n m (runM step s ((List.range m).map fun j : Nat => Op.put j j)).2 i
  | 0, _ => ⟨_, new_singles h⟩
  | m + 1, hm => by
    obtain ⟨i, hi⟩ := run_singles h m (by omega)
    rw [List.range_succ, List.map_append, runM_append]
    exact singles_step hi (by omega)

end Bi
end Verif

namespace Verif
namespace Bi
open BiSpec
variable {s : Bi} {i : Ideal}

/-- No two associations have the same pair of keys. -/
theorem pairs_nodup (h : Inv s i) : (i.assocs.map fun a => (a.left, a.right)).Nodup := by
  have hd := h.idx.distinct
  simp only [toAbs, List.pairwise_map] at hd
  unfold List.Nodup
  rw [List.pairwise_map]
  refine hd.imp ?_
  intro a b hab heq
  simp only [Prod.mk.injEq] at heq
  simp [row, KeyTypes.longEq, heq.1, heq.2] at hab

theorem find_mem (h : Inv s i) {a : Assoc} (ha : a ∈ i.assocs) : i.find a.left a.right = some a := by
  cases hf : i.find a.left a.right with
  | none =>
    unfold Ideal.find at hf
    rw [List.find?_eq_none] at hf
    have := hf a ha
    simp at this
  | some b =>
    obtain ⟨hb, h1, h2⟩ := find_some hf
    have := List.inj_on_of_nodup_map (pairs_nodup h) hb ha (by simp [h1, h2])
    rw [this]

theorem mem_of {d : Dir} {k : Int} {a : Assoc} : a ∈ i.of d k ↔ a ∈ i.assocs ∧ a.key d = k := by
  unfold Ideal.of; simp

theorem withKey_step (h : Inv s i) (d : Dir) (k : Int) :
    (step (.withKey d k) s).out = .ok .unit ∧
    Inv (step (.withKey d k) s).state { i with key := fun d' => if d' = d then k else i.key d' } := by
  have : (step (.withKey d k) s).out = .ok .unit ∧
      (i.has d → Inv (step (.withKey d k) s).state { i with key := fun d' => if d' = d then k else i.key d' }) := by
    constructor
    · simp only [step, withKey]; rw [JM.bind_ok (JM.modify_apply _ _)]; rfl
    · intro hd; exact (step_spec h (.withKey d k) hd).2
  refine ⟨this.1, ?_⟩
  have hr : step (.withKey d k) s = .ok .unit (setMap d s { map d s with key := k }) := by
    simp only [step, withKey]; rw [JM.bind_ok (JM.modify_apply _ _)]; rfl
  rw [hr]
  simp only [Res.state_ok]
  refine { idx := by rw [mappings_setMap]; exact h.idx, many := by rw [many_setMap]; exact h.many
           key := ?_, sides := ?_, ints := h.ints, curs := ?_ }
  · intro d'
    rw [map_setMap']
    simp only
    by_cases hc : d' = d
    · rw [if_pos hc, if_pos hc]
    · rw [if_neg hc, if_neg hc]; exact h.key d'
  · intro d' hd'
    rw [side_setMap]
    exact h.sides d' (by cases d' <;> exact hd')
  · intro d' k' hd'
    have := h.curs d' k' (by cases d' <;> exact hd')
    have hcur : cur d' k' (setMap d s { map d s with key := k }) = cur d' k' s := by
      cases d <;> cases d' <;> cases k' <;> rfl
    rw [hcur]
    exact this

/-- Selecting a key and walking its entries. -/
theorem walk_entries (h : Inv s i) {d : Dir} (hd : i.has d) (k : Int) (hc : i.Covered d k) :
    (runM step s [.withKey d k, .forEachOf d .entry]).1 =
      [.ok .unit, .ok (.ints (i.listOf d .entry k))] := by
  obtain ⟨h1, h2⟩ := withKey_step h d k
  have h3 := (step_spec h2 (.forEachOf d .entry) (by cases d <;> exact hd)).1
  have h4 := h3.1 (by simp only [if_true]; exact hc)
  simp only [SetOk, if_true] at h4
  show [_, _] = _
  rw [h1, h4]
  rfl

/-- Selecting a key and walking its values. -/
theorem walk_values (h : Inv s i) {d : Dir} (hd : i.has d) {k : Int} (h0 : 0 ≤ k) (hs : k < i.span d)
    (hc : i.Covered d k) :
    (runM step s [.withKey d k, .forEachOf d .value]).1 =
      [.ok .unit, .ok (.ints (i.listOf d .value k))] := by
  obtain ⟨h1, h2⟩ := withKey_step h d k
  have h3 := (step_spec h2 (.forEachOf d .value) (by cases d <;> exact hd)).1
  have h4 := h3.1 (by simp only [if_true]; exact hc)
  simp only [SetOk, if_true] at h4
  have h5 := h4.1 h0 hs
  show [_, _] = _
  rw [h1, h5]
  rfl

/-- Selecting a key and counting its associations. -/
theorem count_key (h : Inv s i) {d : Dir} (hd : i.has d) (k : Int) :
    (runM step s [.withKey d k, .count d]).1 =
      [.ok .unit, if i.counted = false then .error .illegalState
        else if k < 0 then .error .indexOutOfBounds else .ok (.int (i.of d k).length)] := by
  obtain ⟨h1, h2⟩ := withKey_step h d k
  have h3 := (step_spec h2 (.count d) (by cases d <;> exact hd)).1
  simp only [Ok, if_true] at h3
  show [_, _] = _
  rw [h1, h3]
  rfl

theorem entries_mem {d : Dir} {k e : Int} : e ∈ i.entriesOf d k ↔ ∃ a ∈ i.assocs, a.key d = k ∧ a.entry = e := by
  unfold Ideal.entriesOf
  rw [List.mem_map]
  constructor
  · rintro ⟨a, ha, rfl⟩; exact ⟨a, (mem_of.1 ha).1, (mem_of.1 ha).2, rfl⟩
  · rintro ⟨a, ha, hk, rfl⟩; exact ⟨a, mem_of.2 ⟨ha, hk⟩, rfl⟩

theorem listOf_entry {d : Dir} {k : Int} : i.listOf d .entry k = i.entriesOf d k := by
  unfold Ideal.listOf Ideal.entriesOf
  congr 1

theorem entries_nodup (h : Inv s i) (d : Dir) (k : Int) : (i.listOf d .entry k).Nodup := by
  rw [listOf_entry]
  have : (i.of d k).Sublist i.assocs := List.filter_sublist
  exact (nodup_live h).sublist (List.Sublist.map _ this)

theorem values_nodup (h : Inv s i) (d : Dir) (k : Int) : (i.listOf d .value k).Nodup := by
  have hsub : (i.of d k).Sublist i.assocs := List.filter_sublist
  have hn := (pairs_nodup h).sublist (List.Sublist.map _ hsub)
  unfold Ideal.listOf
  refine List.Nodup.map_on ?_ (List.Nodup.of_map _ hn)
  intro a ha b hb hab
  have h1 := (mem_of.1 ha).2
  have h2 := (mem_of.1 hb).2
  refine List.inj_on_of_nodup_map hn ha hb ?_
  cases d <;> simp only [Assoc.key, Assoc.show] at * <;> simp [*]

theorem values_mem (h : Inv s i) {d : Dir} {k v : Int} :
    v ∈ i.listOf d .value k ↔
      (match d with | .left => i.find k v | .right => i.find v k).isSome = true := by
  unfold Ideal.listOf
  rw [List.mem_map]
  cases d with
  | left =>
    constructor
    · rintro ⟨a, ha, rfl⟩
      obtain ⟨h1, h2⟩ := mem_of.1 ha
      have := find_mem h h1
      simp only [Assoc.key] at h2
      rw [h2] at this
      simp only [Assoc.show]
      rw [this]; rfl
    · intro hh
      obtain ⟨a, ha⟩ := Option.isSome_iff_exists.1 hh
      obtain ⟨h1, h2, h3⟩ := find_some ha
      exact ⟨a, mem_of.2 ⟨h1, h2⟩, h3⟩
  | right =>
    constructor
    · rintro ⟨a, ha, rfl⟩
      obtain ⟨h1, h2⟩ := mem_of.1 ha
      have := find_mem h h1
      simp only [Assoc.key] at h2
      rw [h2] at this
      simp only [Assoc.show]
      rw [this]; rfl
    · intro hh
      obtain ⟨a, ha⟩ := Option.isSome_iff_exists.1 hh
      obtain ⟨h1, h2, h3⟩ := find_some ha
      exact ⟨a, mem_of.2 ⟨h1, h3⟩, h2⟩

/-- Walking a key whose only association lies beyond the cells of the side. -/
theorem lone_walk (h : Inv s i) {d : Dir} (hd : i.has d) {a : Assoc} {k : Int} (kind : Kind)
    (hone : i.of d k = [a]) (hlen : (side d s).nexts.len ≤ a.entry) :
    (runM step s [.withKey d k, .forEachOf d kind]).1 = [.ok .unit, .error .indexOutOfBounds] := by
  obtain ⟨h1, h2⟩ := withKey_step h d k
  have hd' : Ideal.has { i with key := fun d' => if d' = d then k else i.key d' } d := by
    cases d <;> exact hd
  have hside : side d (step (.withKey d k) s).state = side d s := by
    have hr : step (.withKey d k) s = .ok .unit (setMap d s { map d s with key := k }) := by
      simp only [step, withKey]; rw [JM.bind_ok (JM.modify_apply _ _)]; rfl
    rw [hr]; exact side_setMap _ _ _ _
  rw [← hside] at hlen
  obtain ⟨t, ht⟩ : ∃ t, t = (step (.withKey d k) s).state := ⟨_, rfl⟩
  rw [← ht] at h2 hlen hside
  have hkey : Ideal.key { i with key := fun d' => if d' = d then k else i.key d' } d = k := by simp
  have ham : a ∈ i.assocs := (of_mem (d := d) (key := k) (by rw [hone]; simp)).1
  have hent : (Ideal.entriesOf { i with key := fun d' => if d' = d then k else i.key d' } d k).headD (-1) =
      a.entry := by
    show ((i.of d k).map (·.entry)).headD (-1) = _
    rw [hone]; rfl
  have hsp : 0 ≤ k ∧ k < i.span d := by
    have := (h.sides d hd).ks (k, a.entry) (by
      refine List.mem_map.2 ⟨a, ham, ?_⟩
      have := (of_mem (d := d) (key := k) (a := a) (by rw [hone]; simp)).2
      rw [this])
    exact this
  have hit : iterator d kind t = .ok () (setCur d kind t ⟨k, a.entry⟩) := by
    rcases iterator_spec h2 hd' kind with ⟨g1, _⟩ | ⟨_, g2, _, _⟩
    · rw [hkey, hent] at g1; exact g1
    · rw [hkey] at g2
      exact absurd hsp g2
  have hI : Inv (setCur d kind t ⟨k, a.entry⟩) (Ideal.setCursor
      { i with key := fun d' => if d' = d then k else i.key d' } d kind ⟨k, none⟩) :=
    setCur_inv h2 rfl (by intro l hl; simp at hl)
  have hpos := (key_at h (.inl ham)).1
  have hn : hasNext d kind (setCur d kind t ⟨k, a.entry⟩) = .ok true (setCur d kind t ⟨k, a.entry⟩) := by
    unfold hasNext
    rw [JM.bind_ok (JM.get_apply _), cur_setCur]
    simp only
    rw [decide_eq_true (by omega)]; rfl
  have hf : ∃ u, forEachOf d kind t = .err .indexOutOfBounds u := by
    refine ⟨setCur d kind t ⟨k, a.entry⟩, ?_⟩
    unfold forEachOf
    rw [JM.bind_ok hit, JM.bind_ok (JM.get_apply _)]
    unfold iterAll
    rw [JM.bind_ok hn]
    simp only [if_true]
    rcases next_at hI (d := d) (k := kind) (a := a) ham (by rw [cur_setCur]) with ⟨g1, _⟩ | ⟨_, g2⟩
    · rw [side_setCur] at g1; omega
    · rw [JM.bind_err g2]
  obtain ⟨u, hu⟩ := hf
  have hout : (step (.forEachOf d kind) t).out = .error .indexOutOfBounds := by
    simp only [step]; rw [JM.bind_err hu]; rfl
  show [_, _] = _
  rw [h1, ← ht, hout]

end Bi
end Verif
