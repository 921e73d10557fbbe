import Verif.Proofs.Bi2
import Verif.Proofs.Index8
import Verif.Proofs.Reach
import Verif.Props.Pack
import Verif.Props.KeyTypes
/-! Proofs about the two-sided collections, part 3: the invariant, construction, put and remove. -/
set_option linter.unusedSectionVars false
namespace Verif
namespace Bi
open BiSpec

abbrev LIx := Index (BitVec 64) Unit
abbrev LAbs := IndexSpec.Abs (BitVec 64) Unit

def row (a : Assoc) : IndexSpec.Row (BitVec 64) Unit := ⟨a.entry, pack a.left a.right, ()⟩

/-- The ideal set of packed pairs. -/
def toAbs (i : Ideal) : LAbs :=
  ⟨i.assocs.map row, i.reserved.map row, i.free, i.next, KeyTypes.longHash, KeyTypes.longEq⟩

/-- The (key, entry) pairs of one side. -/
def pairs (d : Dir) (i : Ideal) : List (Int × Int) := i.assocs.map fun a => (a.key d, a.entry)

theorem coherent : IndexSpec.Coherent KeyTypes.longHash KeyTypes.longEq := C42_primitives_coherent.1

theorem toInt_ofInt {k : Int} (h : IsInt k) : (BitVec.ofInt 32 k).toInt = k := by
  rw [BitVec.toInt_ofInt]
  unfold IsInt at h
  rw [Int.bmod_def]
  split <;> omega

theorem unpackHi {l : Int} (r : Int) (h : IsInt l) : (Pack.unpackHiInt (pack l r)).toInt = l := by
  rw [pack, (C13_unpack_pack _ _).1, toInt_ofInt h]

theorem unpackLo (l : Int) {r : Int} (h : IsInt r) : (Pack.unpackLoInt (pack l r)).toInt = r := by
  rw [pack, (C13_unpack_pack _ _).2, toInt_ofInt h]

theorem pack_inj {l r l' r' : Int} (h1 : IsInt l) (h2 : IsInt r) (h3 : IsInt l') (h4 : IsInt r') :
    pack l r = pack l' r' ↔ l = l' ∧ r = r' := by
  constructor
  · intro h
    have a := unpackHi r h1
    have b := unpackLo l h2
    rw [h] at a b
    rw [unpackHi r' h3] at a
    rw [unpackLo l' h4] at b
    exact ⟨a.symm, b.symm⟩
  · rintro ⟨rfl, rfl⟩; rfl

structure Inv (s : Bi) (i : Ideal) : Prop where
  idx : Index.Inv True s.mappings (toAbs i) i.free
  many : s.many = i.many
  key : ∀ d, (map d s).key = i.key d
  sides : ∀ d, i.has d → Side.Inv (side d s) (pairs d i) (i.room d) (i.span d) i.counted
  ints : ∀ a, a ∈ i.assocs ∨ a ∈ i.reserved → IsInt a.left ∧ IsInt a.right
  curs : ∀ d k, i.has d → (cur d k s).key = (i.cursor d k).key ∧
    ∀ l, (i.cursor d k).rest = some l → (cur d k s).entry = l.headD (-1) ∧
      l <:+ i.entriesOf d (i.cursor d k).key

variable {s : Bi} {i : Ideal}

theorem ent_pairs (i : Ideal) (d : Dir) (k : Int) : Side.ent (pairs d i) k = i.entriesOf d k := by
  unfold Side.ent pairs Ideal.entriesOf Ideal.of
  rw [List.filter_map, List.map_map]
  rfl

theorem map_entry (i : Ideal) (d : Dir) : (pairs d i).map (·.2) = i.live := by
  unfold pairs Ideal.live
  rw [List.map_map]; rfl

theorem live_toAbs (i : Ideal) : (toAbs i).live = i.live := by
  unfold toAbs IndexSpec.Abs.live Ideal.live
  rw [List.map_map]; rfl

theorem held_toAbs (i : Ideal) : (toAbs i).held = i.held := by
  unfold toAbs IndexSpec.Abs.held Ideal.held
  rw [List.map_map]; rfl

theorem alloc_toAbs (i : Ideal) : (toAbs i).alloc = i.alloc := rfl

theorem free_eq {m : LIx} {a : LAbs} {F : List Int} (h : Index.Inv True m a F) : F = a.free :=
  (h.tight trivial).2.2

theorem find_toAbs (hi : ∀ a, a ∈ i.assocs ∨ a ∈ i.reserved → IsInt a.left ∧ IsInt a.right)
    {l r : Int} (hl : IsInt l) (hr : IsInt r) :
    (toAbs i).find (pack l r) = (i.find l r).map row := by
  unfold IndexSpec.Abs.find Ideal.find toAbs
  simp only
  rw [List.find?_map]
  congr 1
  have : ∀ (as : List Assoc), (∀ a ∈ as, a ∈ i.assocs) →
      as.find? ((fun r_1 => KeyTypes.longEq (pack l r) r_1.key) ∘ row) =
      as.find? (fun a => decide (a.left = l ∧ a.right = r)) := by
    intro as
    induction as with
    | nil => intro _; rfl
    | cons a as ih =>
      intro hh
      have ha := hi a (.inl (hh a (by simp)))
      have e : ((fun r_1 => KeyTypes.longEq (pack l r) r_1.key) ∘ row) a =
          decide (a.left = l ∧ a.right = r) := by
        simp only [Function.comp, row, KeyTypes.longEq]
        have hp := pack_inj hl hr ha.1 ha.2
        by_cases hc : a.left = l ∧ a.right = r
        · rw [decide_eq_true hc]
          simp only [beq_iff_eq]
          exact hp.2 ⟨hc.1.symm, hc.2.symm⟩
        · rw [decide_eq_false hc]
          simp only [beq_eq_false_iff_ne, ne_eq]
          intro hh
          have := hp.1 hh
          exact hc ⟨this.1.symm, this.2.symm⟩
      rw [List.find?_cons, List.find?_cons, e, ih (fun b hb => hh b (List.mem_cons_of_mem _ hb))]
  exact this i.assocs (fun a ha => ha)

theorem find_some {l r : Int} {a : Assoc} (h : i.find l r = some a) :
    a ∈ i.assocs ∧ a.left = l ∧ a.right = r := by
  unfold Ideal.find at h
  have h1 := List.mem_of_find?_eq_some h
  have h2 := List.find?_some h
  simp only [decide_eq_true_eq] at h2
  exact ⟨h1, h2⟩

/-- What a reader of the set of mappings sees. -/
theorem key_at (h : Inv s i) {a : Assoc} (ha : a ∈ i.assocs ∨ a ∈ i.reserved) :
    0 ≤ a.entry ∧ a.entry < s.mappings.keys.len ∧ s.mappings.keys.get a.entry = pack a.left a.right := by
  have hr : row a ∈ (toAbs i).rows ∨ row a ∈ (toAbs i).reserved := by
    rcases ha with ha | ha
    · exact .inl (List.mem_map_of_mem ha)
    · exact .inr (List.mem_map_of_mem ha)
  have h1 := Index.row_range h.idx hr
  have h2 := (h.idx.rowsOk _ hr).1
  have h3 := Index.klen_eq h.idx
  exact ⟨h1.1, by rw [h3]; exact h1.2, h2⟩

/-! ### bookkeeping of the two halves -/

@[simp] theorem side_setSide_self (d : Dir) (s : Bi) (x : Side) : side d (setSide d s x) = x := by
  cases d <;> rfl
@[simp] theorem mappings_setSide (d : Dir) (s : Bi) (x : Side) : (setSide d s x).mappings = s.mappings := by
  cases d <;> rfl
@[simp] theorem many_setSide (d : Dir) (s : Bi) (x : Side) : (setSide d s x).many = s.many := by
  cases d <;> rfl
@[simp] theorem map_setSide (d d' : Dir) (s : Bi) (x : Side) : map d' (setSide d s x) = map d' s := by
  cases d <;> cases d' <;> rfl
@[simp] theorem setSide_self (d : Dir) (s : Bi) : setSide d s (side d s) = s := by
  cases d <;> rfl
@[simp] theorem cur_setSide (d d' : Dir) (k : Kind) (s : Bi) (x : Side) :
    cur d' k (setSide d s x) = cur d' k s := by
  cases d <;> cases d' <;> cases k <;> rfl
@[simp] theorem side_setMap (d d' : Dir) (s : Bi) (x : Mapping) : side d' (setMap d s x) = side d' s := by
  cases d <;> cases d' <;> rfl
@[simp] theorem mappings_setMap (d : Dir) (s : Bi) (x : Mapping) : (setMap d s x).mappings = s.mappings := by
  cases d <;> rfl
@[simp] theorem many_setMap (d : Dir) (s : Bi) (x : Mapping) : (setMap d s x).many = s.many := by
  cases d <;> rfl
@[simp] theorem map_setMap (d : Dir) (s : Bi) (x : Mapping) : map d (setMap d s x) = x := by
  cases d <;> rfl
theorem map_setMap' (d d' : Dir) (s : Bi) (x : Mapping) :
    map d' (setMap d s x) = if d' = d then x else map d' s := by
  cases d <;> cases d' <;> rfl
@[simp] theorem side_setCur (d d' : Dir) (k : Kind) (s : Bi) (c : Cur) :
    side d' (setCur d k s c) = side d' s := by
  cases d <;> cases d' <;> cases k <;> rfl
@[simp] theorem mappings_setCur (d : Dir) (k : Kind) (s : Bi) (c : Cur) :
    (setCur d k s c).mappings = s.mappings := by cases d <;> cases k <;> rfl
@[simp] theorem many_setCur (d : Dir) (k : Kind) (s : Bi) (c : Cur) :
    (setCur d k s c).many = s.many := by cases d <;> cases k <;> rfl
@[simp] theorem key_setCur (d d' : Dir) (k : Kind) (s : Bi) (c : Cur) :
    (map d' (setCur d k s c)).key = (map d' s).key := by cases d <;> cases d' <;> cases k <;> rfl
@[simp] theorem cur_setCur (d : Dir) (k : Kind) (s : Bi) (c : Cur) : cur d k (setCur d k s c) = c := by
  cases d <;> cases k <;> rfl
theorem cur_setCur' (d d' : Dir) (k k' : Kind) (s : Bi) (c : Cur) :
    cur d' k' (setCur d k s c) = if d' = d ∧ k' = k then c else cur d' k' s := by
  cases d <;> cases d' <;> cases k <;> cases k' <;> rfl
@[simp] theorem setCur_setCur (d : Dir) (k : Kind) (s : Bi) (c c' : Cur) :
    setCur d k (setCur d k s c) c' = setCur d k s c' := by
  cases d <;> cases k <;> rfl

theorem onMappings_ok {α : Type} {m : JM LIx α} {a : α} {t : LIx} (h : m s.mappings = .ok a t) :
    onMappings m s = .ok a { s with mappings := t } := by
  show (match m s.mappings with | .ok a t => _ | .err e t => _) = _
  rw [h]
theorem onMappings_err {α : Type} {m : JM LIx α} {e : Err} {t : LIx} (h : m s.mappings = .err e t) :
    onMappings m s = .err e { s with mappings := t } := by
  show (match m s.mappings with | .ok a t => _ | .err e t => _) = _
  rw [h]
theorem onSide_ok {α : Type} {d : Dir} {m : JM Side α} {a : α} {t : Side} (h : m (side d s) = .ok a t) :
    onSide d m s = .ok a (setSide d s t) := by
  show (match m (side d s) with | .ok a t => _ | .err e t => _) = _
  rw [h]
theorem onSide_err {α : Type} {d : Dir} {m : JM Side α} {e : Err} {t : Side}
    (h : m (side d s) = .err e t) : onSide d m s = .err e (setSide d s t) := by
  show (match m (side d s) with | .ok a t => _ | .err e t => _) = _
  rw [h]

theorem getSize_ok : onMappings Index.getSize s = .ok s.mappings.size s := rfl

theorem size_eq (h : Inv s i) : s.mappings.size = i.assocs.length := by
  have := h.idx.size
  rw [this]
  simp [toAbs]

/-! ### construction -/

theorem new_inv {many : Bool} {il ir ic : Int} {counts : Bool} {s : Bi}
    (h : Bi.new many il ir ic counts = .ok s) : Inv s (start many il ir ic counts) := by
  unfold Bi.new at h
  cases hm : Index.new (V := Unit) KeyTypes.longHash KeyTypes.longEq ic 3 4 with
  | error e => rw [hm] at h; simp [bind, Except.bind] at h
  | ok m =>
    rw [hm] at h
    have hI := Index.new_inv KeyTypes.longHash KeyTypes.longEq hm
    have hic : ¬ (ic ≤ 0 ∨ ic > MAX_CAPACITY) := by
      intro hh
      unfold Index.new at hm
      rw [if_pos hh] at hm
      simp at hm
    have hcap := nextPowerOf2_spec (v := ic) (by omega) (by rw [MAX_CAPACITY_eq] at hic; omega)
    have ht : ((4 : Nat) : Int) ≤ 2 * nextPowerOf2 ic * (3 : Nat) := by
      obtain ⟨k, _, hk, _, _⟩ := hcap
      have := Nat.two_pow_pos k
      omega
    have hI' : Index.Inv True m (IndexSpec.empty KeyTypes.longHash KeyTypes.longEq) [] :=
      hI.weaken (fun _ => ht)
    -- a new side
    have side0 : ∀ {n : Int} {sd : Side}, Side.new n ic counts = .ok sd →
        Side.Inv sd [] ic n counts := by
      intro n sd hn
      unfold Side.new at hn
      split at hn
      · simp at hn
      · rename_i hneg
        simp only [Except.ok.injEq] at hn
        subst hn
        refine { pl := rfl, rm := by simp; omega, sp := by simp; omega, ks := by simp, en := by simp,
                 nd := by simp, hd := by simp [Side.ent], lk := by simp [Side.ent, Side.Links],
                 fr := by simp, ct := ?_ }
        cases counts
        · left; simp
        · right; exact ⟨rfl, _, rfl, rfl, by simp [Side.ent]⟩
    cases hl : Side.new il ic counts with
    | error e => rw [hl] at h; simp [bind, Except.bind] at h
    | ok left =>
      rw [hl] at h
      cases many with
      | false =>
        simp only [Side.new, bind, Except.bind, pure, Except.pure] at h
        simp at h
        subst h
        refine { idx := hI', many := rfl, key := fun d => by cases d <;> rfl, sides := ?_,
                 ints := by simp [start], curs := ?_ }
        · intro d hd
          cases d
          · exact side0 hl
          · simp [Ideal.has, start] at hd
        · intro d k _
          exact ⟨by cases d <;> cases k <;> rfl, by simp [start]⟩
      | true =>
        cases hr : Side.new ir ic counts with
        | error e => rw [hr] at h; simp [bind, Except.bind] at h
        | ok right =>
          rw [hr] at h
          simp only [bind, Except.bind, pure, Except.pure, if_true, Except.ok.injEq] at h
          subst h
          refine { idx := hI', many := rfl, key := fun d => by cases d <;> rfl, sides := ?_,
                   ints := by simp [start], curs := ?_ }
          · intro d hd
            cases d
            · exact side0 hl
            · exact side0 hr
          · intro d k _
            exact ⟨by cases d <;> cases k <;> rfl, by simp [start]⟩

/-! ### put -/

theorem live_fresh (h : Inv s i) : i.alloc ∉ i.live ∧ 0 ≤ i.alloc := by
  have := Index.fresh_alloc h.idx (e := (toAbs i).alloc) (by
    unfold IndexSpec.Abs.alloc
    cases hf : (toAbs i).free with
    | nil => right; rfl
    | cons x t => left; simp)
  rw [← live_toAbs]
  exact ⟨this.2.1, this.1⟩

theorem length_lt (h : Inv s i) : i.assocs.length ≤ 536870912 := by
  have h1 := Index.Inv.live_nodup h.idx
  have h2 : ∀ e ∈ i.live, 0 ≤ e ∧ e < 536870912 := by
    intro e he
    have := h.idx.live_range (by rw [live_toAbs]; exact he)
    have h3 := h.idx.cap_pos
    have h4 := h.idx.nlen
    have e29 : (2:Int)^29 = 536870912 := by decide
    omega
  rw [live_toAbs] at h1
  have h3 : (i.live.map Int.toNat).Nodup := by
    refine List.Nodup.map_on ?_ h1
    intro x hx y hy hxy
    have := h2 x hx; have := h2 y hy
    omega
  have h4 : (i.live.map Int.toNat) ⊆ List.range 536870912 := by
    intro x hx
    rw [List.mem_map] at hx
    obtain ⟨y, hy, rfl⟩ := hx
    have := h2 y hy
    rw [List.mem_range]; omega
  have := (List.subperm_of_subset h3 h4).length_le
  simpa [Ideal.live] using this

theorem pairs_length (d : Dir) : (pairs d i).length = i.assocs.length := by simp [pairs]

theorem of_nil (d : Dir) (k : Int) : i.of d k = [] ↔ Side.ent (pairs d i) k = [] := by
  rw [ent_pairs, Ideal.entriesOf, List.map_eq_nil_iff]

/-- Inserting on one side. -/
theorem insert_side (h : Inv s i) {d : Dir} (hd : i.has d) {e l r : Int} (he : e = i.alloc)
    (hb : e < 536870912)
    (hg : 0 ≤ Assoc.key d ⟨e, l, r⟩ ∧ Assoc.key d ⟨e, l, r⟩ < 2 ^ 30 ∧
      i.Linkable d (Assoc.key d ⟨e, l, r⟩) e) :
    ∃ x, Side.insertEntry (Assoc.key d ⟨e, l, r⟩) e (side d s) = .ok () x ∧
      Side.Inv x (pairs d (i.insert e l r)) ((i.insert e l r).room d) ((i.insert e l r).span d)
        (i.insert e l r).counted ∧
      (i.entriesOf d (Assoc.key d ⟨e, l, r⟩) = [] → x.nexts = (side d s).nexts) := by
  have hfr := live_fresh h
  rw [← he] at hfr
  have hlen := length_lt h
  obtain ⟨x, h1, h2, h3⟩ := Side.insertEntry_ok (h.sides d hd) (k := Assoc.key d ⟨e, l, r⟩) (e := e)
    ⟨hg.1, by have := hg.2.1; omega⟩ ⟨hfr.2, by omega⟩ (by rw [map_entry]; exact hfr.1)
    (by intro x hx; rw [ent_pairs] at hx; exact hg.2.2 x hx) (by rw [pairs_length]; omega)
  refine ⟨x, h1, ?_, fun hh => h3 (by rw [ent_pairs]; exact hh)⟩
  have e1 : ((i.insert e l r).room d) =
      if Side.ent (pairs d i) (Assoc.key d ⟨e, l, r⟩) = [] then i.room d else max (i.room d) (e + 1) := by
    show (if i.of d _ = [] then _ else _) = _
    by_cases hc : i.of d (Assoc.key d ⟨e, l, r⟩) = []
    · rw [if_pos hc, if_pos ((of_nil d _).1 hc)]
    · rw [if_neg hc, if_neg (fun hh => hc ((of_nil d _).2 hh))]
  rw [e1]
  exact h2

theorem entriesOf_insert {e l r : Int} (d : Dir) (k : Int) :
    (i.insert e l r).entriesOf d k =
      if Assoc.key d ⟨e, l, r⟩ = k then e :: i.entriesOf d k else i.entriesOf d k := by
  rw [← ent_pairs, ← ent_pairs]
  exact Side.ent_cons _ _

theorem put_absent (h : Inv s i) {l r : Int} (hf : i.find l r = none) (hg : Guard (.put l r) i) :
    ∃ s', put l r s = .ok i.alloc s' ∧ Inv s' (i.insert i.alloc l r) ∧
      (i.entriesOf .left l = [] → (side .left s').nexts = (side .left s).nexts) := by
  obtain ⟨hl, hr, hg⟩ := hg
  obtain ⟨hk, hlen⟩ := hg hf
  have hfa : (toAbs i).find (pack l r) = none := by rw [find_toAbs h.ints hl hr, hf]; rfl
  obtain ⟨e, m, F', a1, a2, _, _, a5, a6, _⟩ :=
    Index.add_absent h.idx hfa coherent (by simpa [toAbs] using hlen)
  have he : e = i.alloc := a6.1 trivial
  have hidx : Index.Inv True m (toAbs (i.insert e l r)) F' := a2
  have hF := free_eq hidx
  have hF' : F' = (i.insert e l r).free := hF
  have hsz : m.size = s.mappings.size + 1 := by
    rw [hidx.size, h.idx.size]
    simp [toAbs, Ideal.insert]
  have hb : e < 536870912 := by
    have := hidx.live_range (e := e) (by rw [live_toAbs]; simp [Ideal.live, Ideal.insert])
    have h3 := hidx.cap_pos
    have h4 := hidx.nlen
    have e29 : (2:Int)^29 = 536870912 := by decide
    omega
  obtain ⟨x, x1, x2, x3⟩ := insert_side h (d := .left) trivial he hb (l := l) (r := r)
    (by rw [he]; exact hk .left trivial)
  -- the right half
  have hright : ∀ t : Bi, t.many = s.many → t.right = s.right →
      ∃ y, insertRight r e t = .ok () { t with right := y } ∧
      (i.has .right → Side.Inv y (pairs .right (i.insert e l r)) ((i.insert e l r).room .right)
        ((i.insert e l r).span .right) (i.insert e l r).counted) := by
    intro t hmt hrt
    unfold insertRight
    rw [JM.bind_ok (JM.get_apply _)]
    by_cases hm : t.many = true
    · rw [JM.when_pos hm]
      have hhas : i.has .right := by rw [hmt, h.many] at hm; exact hm
      obtain ⟨y, y1, y2, _⟩ := insert_side h (d := .right) hhas he hb (l := l) (r := r)
        (by rw [he]; exact hk .right hhas)
      refine ⟨y, ?_, fun _ => y2⟩
      exact onSide_ok (s := t) (d := .right) (by
        show Side.insertEntry r e t.right = _
        rw [hrt]; exact y1)
    · rw [JM.when_neg hm]
      refine ⟨t.right, rfl, fun hh => ?_⟩
      exact absurd (by rw [hmt, h.many]; exact hh) hm
  obtain ⟨y, y1, y2⟩ := hright { s with mappings := m, left := x } rfl rfl
  refine ⟨{ s with mappings := m, left := x, right := y }, ?_, ?_, x3⟩
  · unfold put
    rw [JM.bind_ok getSize_ok, JM.bind_ok (onMappings_ok a1), JM.bind_ok getSize_ok,
      if_neg (by simp only; omega)]
    have hleft : insertLeft l e { s with mappings := m } = .ok () { s with mappings := m, left := x } :=
      onSide_ok (s := { s with mappings := m }) (d := .left) x1
    rw [JM.bind_ok hleft, JM.bind_ok y1, ← he]
    rfl
  · rw [← he]
    refine { idx := by rw [← hF']; exact hidx, many := h.many
             key := fun d => by cases d <;> [exact h.key .left; exact h.key .right], sides := ?_, ints := ?_,
             curs := ?_ }
    · intro d hd
      cases d
      · exact x2
      · exact y2 hd
    · intro a ha
      rcases ha with ha | ha
      · rcases List.mem_cons.1 ha with rfl | ha
        · exact ⟨hl, hr⟩
        · exact h.ints a (.inl ha)
      · exact h.ints a (.inr ha)
    · intro d k hd
      obtain ⟨c1, c2⟩ := h.curs d k hd
      have hcur : cur d k { s with mappings := m, left := x, right := y } = cur d k s := by
        cases d <;> cases k <;> rfl
      rw [hcur]
      refine ⟨c1, fun L hL => ?_⟩
      obtain ⟨g1, g2⟩ := c2 L hL
      refine ⟨g1, ?_⟩
      rw [entriesOf_insert]
      show L <:+ if _ = (i.cursor d k).key then _ else _
      split
      · exact g2.trans (List.suffix_cons _ _)
      · exact g2

theorem put_present (h : Inv s i) {l r : Int} {a : Assoc} (hl : IsInt l) (hr : IsInt r)
    (hf : i.find l r = some a) : put l r s = .ok a.entry s := by
  have hfa : (toAbs i).find (pack l r) = some (row a) := by rw [find_toAbs h.ints hl hr, hf]; rfl
  unfold put
  rw [JM.bind_ok getSize_ok, JM.bind_ok (onMappings_ok (Index.add_present h.idx hfa)),
    JM.bind_ok getSize_ok, if_pos rfl]
  rfl

/-! ### remove -/

theorem nodup_live (h : Inv s i) : i.live.Nodup := by
  have := Index.Inv.live_nodup h.idx
  rwa [live_toAbs] at this

theorem pairs_drop (d : Dir) (e : Int) : pairs d (i.drop e) = (pairs d i).filter fun p => p.2 ≠ e := by
  unfold pairs Ideal.drop
  rw [List.filter_map]
  rfl

theorem entriesOf_drop (d : Dir) (k e : Int) :
    (i.drop e).entriesOf d k = (i.entriesOf d k).filter (· ≠ e) := by
  rw [← ent_pairs, ← ent_pairs, pairs_drop, Side.ent_filter]

theorem toAbs_drop (e : Int) : toAbs (i.drop e) = (toAbs i).drop e := by
  unfold toAbs Ideal.drop IndexSpec.Abs.drop
  simp only
  rw [List.filter_map]
  rfl

/-- Taking an association out of the two halves. -/
theorem remove_sides (h : Inv s i) {a : Assoc} (ha : a ∈ i.assocs) (hg : Removable i a)
    {t : Bi} (hm : t.many = s.many) (h1 : t.left = s.left) (h2 : t.right = s.right) :
    ∃ x y, removeLeft a.left a.entry t = .ok () { t with left := x } ∧
      removeRight a.right a.entry { t with left := x } = .ok () { t with left := x, right := y } ∧
      ∀ d, i.has d → Side.Inv (side d { t with left := x, right := y }) (pairs d (i.drop a.entry))
        (i.room d) (i.span d) i.counted := by
  have hlen := length_lt h
  have one : ∀ d, i.has d → ∃ x, Side.removeEntry (a.key d) a.entry (side d s) = .ok () x ∧
      Side.Inv x (pairs d (i.drop a.entry)) (i.room d) (i.span d) i.counted := by
    intro d hd
    rw [pairs_drop]
    refine Side.removeEntry_ok (h.sides d hd) (List.mem_map_of_mem (f := fun a => (a.key d, a.entry)) ha)
      ?_ (by rw [pairs_length]; omega)
    intro x hx
    rw [ent_pairs] at hx
    exact hg d hd x hx
  obtain ⟨x, x1, x2⟩ := one .left trivial
  have hL : removeLeft a.left a.entry t = .ok () { t with left := x } :=
    onSide_ok (s := t) (d := .left) (by
      show Side.removeEntry _ _ t.left = _
      rw [h1]; exact x1)
  by_cases hmany : s.many = true
  · have hhas : i.has .right := by rw [h.many] at hmany; exact hmany
    obtain ⟨y, y1, y2⟩ := one .right hhas
    refine ⟨x, y, hL, ?_, ?_⟩
    · unfold removeRight
      rw [JM.bind_ok (JM.get_apply _), JM.when_pos (by simp only; rw [hm]; exact hmany)]
      exact onSide_ok (s := { t with left := x }) (d := .right) (by
        show Side.removeEntry _ _ t.right = _
        rw [h2]; exact y1)
    · intro d hd
      cases d
      · exact x2
      · exact y2
  · refine ⟨x, t.right, hL, ?_, ?_⟩
    · unfold removeRight
      rw [JM.bind_ok (JM.get_apply _), JM.when_neg (by simp only; rw [hm]; exact hmany)]
      rfl
    · intro d hd
      cases d
      · exact x2
      · rw [h.many] at hmany; exact absurd hd hmany

theorem curs_drop (h : Inv s i) {e : Int} {t : Bi} (hcur : ∀ d k, cur d k t = cur d k s) (d : Dir) (k : Kind)
    (hd : i.has d) : (cur d k t).key = ((i.drop e).cursor d k).key ∧
    ∀ l, ((i.drop e).cursor d k).rest = some l → (cur d k t).entry = l.headD (-1) ∧
      l <:+ (i.drop e).entriesOf d ((i.drop e).cursor d k).key := by
  obtain ⟨c1, c2⟩ := h.curs d k hd
  rw [hcur]
  refine ⟨c1, ?_⟩
  intro l hl
  have hl' : (match (i.cursor d k).rest with
      | some (x :: l) => if x = e then none else some (x :: l.filter (· ≠ e))
      | o => o) = some l := hl
  show _ ∧ l <:+ (i.drop e).entriesOf d (i.cursor d k).key
  rw [entriesOf_drop]
  cases hr : (i.cursor d k).rest with
  | none => rw [hr] at hl'; simp at hl'
  | some L =>
    obtain ⟨g1, g2⟩ := c2 L hr
    rw [hr] at hl'
    cases L with
    | nil =>
      simp only [Option.some.injEq] at hl'
      subst hl'
      exact ⟨g1, List.nil_suffix⟩
    | cons x L =>
      simp only at hl'
      split at hl'
      · simp at hl'
      · rename_i hxe
        simp only [Option.some.injEq] at hl'
        subst hl'
        refine ⟨g1, ?_⟩
        have := g2.filter (fun y => decide (y ≠ e))
        rwa [List.filter_cons, if_pos (by simpa using hxe)] at this

/-- The state in which an association is gone. -/
theorem drop_inv (h : Inv s i) {a : Assoc} {t : Bi} {j : Ideal}
    (hj1 : j.assocs = (i.drop a.entry).assocs) (hj2 : ∀ b ∈ j.reserved, b ∈ i.assocs ∨ b ∈ i.reserved)
    (hj3 : j.room = i.room) (hj4 : j.span = i.span) (hj5 : j.counted = i.counted) (hj6 : j.many = i.many)
    (hj7 : j.key = i.key) (hj8 : j.cursor = (i.drop a.entry).cursor)
    (ht1 : t.many = s.many) (ht2 : t.leftMap = s.leftMap) (ht3 : t.rightMap = s.rightMap)
    (hs : ∀ d, i.has d → Side.Inv (side d t) (pairs d (i.drop a.entry)) (i.room d) (i.span d) i.counted)
    (hidx : Index.Inv True t.mappings (toAbs j) j.free) : Inv t j := by
  have hhas : ∀ d, j.has d → i.has d := by
    intro d hd
    cases d
    · trivial
    · exact hj6.symm.trans hd
  have hof : ∀ d k, j.entriesOf d k = (i.drop a.entry).entriesOf d k := by
    intro d k
    unfold Ideal.entriesOf Ideal.of
    rw [hj1]
  refine { idx := hidx, many := by rw [ht1, h.many, hj6], key := ?_, sides := ?_, ints := ?_, curs := ?_ }
  · intro d
    rw [hj7, ← h.key d]
    cases d
    · exact congrArg Mapping.key ht2
    · exact congrArg Mapping.key ht3
  · intro d hd
    have := hs d (hhas d hd)
    rw [hj3, hj4, hj5]
    rw [show pairs d j = pairs d (i.drop a.entry) by unfold pairs; rw [hj1]]
    exact this
  · intro b hb
    rcases hb with hb | hb
    · rw [hj1] at hb
      exact h.ints b (.inl (List.mem_filter.1 hb).1)
    · exact h.ints b (hj2 b hb)
  · intro d k hd
    have hc := curs_drop h (e := a.entry) (t := t) (by
      intro d k; cases d <;> cases k <;> simp [cur, map, ht2, ht3]) d k (hhas d hd)
    rw [hj8, hof]
    exact hc

theorem removeAt_ok (h : Inv s i) {a : Assoc} (ha : a ∈ i.assocs) (hg : Removable i a) :
    ∃ s', Inv s' { i.drop a.entry with free := a.entry :: i.free } ∧
      removeAt a.entry s = .ok a.entry s' ∧
      (do removeLeft a.left a.entry; removeRight a.right a.entry; onMappings (Index.removeAt a.entry);
          pure a.entry : JM Bi Int) s = .ok a.entry s' := by
  obtain ⟨x, y, x1, y1, hs⟩ := remove_sides h ha hg (t := s) rfl rfl rfl
  obtain ⟨m, m1, m2, _⟩ := Index.removeAt_live h.idx (e := a.entry) (by
    rw [live_toAbs]; exact List.mem_map_of_mem ha)
  have hkey := key_at h (.inl ha)
  have hint := h.ints a (.inl ha)
  have hm : onMappings (Index.removeAt a.entry) { s with left := x, right := y } =
      .ok () { s with left := x, right := y, mappings := m } :=
    onMappings_ok (s := { s with left := x, right := y }) m1
  have hrun : (do removeLeft a.left a.entry; removeRight a.right a.entry
                  onMappings (Index.removeAt a.entry); pure a.entry : JM Bi Int) s =
      .ok a.entry { s with left := x, right := y, mappings := m } := by
    rw [JM.bind_ok x1, JM.bind_ok y1, JM.bind_ok hm]; rfl
  refine ⟨{ s with left := x, right := y, mappings := m }, ?_, ?_, hrun⟩
  · refine drop_inv h (a := a) rfl (fun b hb => .inr hb) rfl rfl rfl rfl rfl rfl rfl rfl rfl ?_ ?_
    · intro d hd
      have := hs d hd
      cases d <;> exact this
    · have e : toAbs { i.drop a.entry with free := a.entry :: i.free } =
          { (toAbs i).drop a.entry with free := a.entry :: (toAbs i).free } := by
        rw [← toAbs_drop]; rfl
      rw [e]
      exact m2
  · unfold removeAt
    have hk : onMappings (Index.getKeyAt a.entry) s = .ok (pack a.left a.right) s := by
      rw [onMappings_ok (t := s.mappings) (a := pack a.left a.right)]
      unfold Index.getKeyAt
      rw [rd_ok _ ⟨hkey.1, hkey.2.1⟩, hkey.2.2]
    rw [JM.bind_ok hk, unpackHi a.right hint.1, unpackLo a.left hint.2]
    exact hrun

theorem lookup_eq (h : Inv s i) {l r : Int} (hl : IsInt l) (hr : IsInt r) :
    onMappings (Index.lookupEntry (pack l r)) s =
      .ok (match i.find l r with | some a => a.entry | none => -1) s := by
  have := Index.lookupEntry_spec h.idx (pack l r)
  rw [onMappings_ok this]
  unfold Index.entryOf
  rw [find_toAbs h.ints hl hr]
  cases i.find l r <;> rfl

theorem remove_present (h : Inv s i) {l r : Int} {a : Assoc} (hl : IsInt l) (hr : IsInt r)
    (hf : i.find l r = some a) (hg : Removable i a) :
    ∃ s', remove l r s = .ok a.entry s' ∧ Inv s' { i.drop a.entry with free := a.entry :: i.free } := by
  obtain ⟨ha, rfl, rfl⟩ := find_some hf
  obtain ⟨s', h1, _, h3⟩ := removeAt_ok h ha hg
  refine ⟨s', ?_, h1⟩
  have hpos := (key_at h (.inl ha)).1
  unfold remove
  rw [JM.bind_ok (lookup_eq h hl hr), hf]
  simp only
  rw [if_neg (by omega)]
  exact h3

theorem remove_absent (h : Inv s i) {l r : Int} (hl : IsInt l) (hr : IsInt r)
    (hf : i.find l r = none) : remove l r s = .ok (-1) s := by
  unfold remove
  rw [JM.bind_ok (lookup_eq h hl hr), hf]
  simp only
  rw [if_pos trivial]
  rfl

theorem reserve_ok (h : Inv s i) {a : Assoc} (ha : a ∈ i.assocs) (hg : Removable i a) :
    ∃ s', removeAtAndReserve a.entry s = .ok () s' ∧
      Inv s' { i.drop a.entry with
        reserved := (i.assocs.filter fun b => b.entry = a.entry) ++ i.reserved } := by
  obtain ⟨m, F', m1, m2, _⟩ := Index.reserve_ok h.idx (e := a.entry)
    ⟨row a, List.mem_map_of_mem ha, rfl, by simp [toAbs, KeyTypes.longEq]⟩
  obtain ⟨x, y, x1, y1, hs⟩ := remove_sides h ha hg (t := { s with mappings := m }) rfl rfl rfl
  have hkey := key_at h (.inl ha)
  have hint := h.ints a (.inl ha)
  refine ⟨{ s with mappings := m, left := x, right := y }, ?_, ?_⟩
  · unfold removeAtAndReserve
    have hk : onMappings (Index.getKeyAt a.entry) s = .ok (pack a.left a.right) s := by
      rw [onMappings_ok (t := s.mappings) (a := pack a.left a.right)]
      unfold Index.getKeyAt
      rw [rd_ok _ ⟨hkey.1, hkey.2.1⟩, hkey.2.2]
    rw [JM.bind_ok hk, JM.bind_ok (onMappings_ok m1), unpackHi a.right hint.1, unpackLo a.left hint.2,
      JM.bind_ok x1]
    exact y1
  · have e : toAbs { i.drop a.entry with
        reserved := (i.assocs.filter fun b => b.entry = a.entry) ++ i.reserved } =
        { (toAbs i).drop a.entry with
          reserved := ((toAbs i).rows.filter fun r => r.entry = a.entry) ++ (toAbs i).reserved } := by
      rw [← toAbs_drop]
      unfold toAbs Ideal.drop
      simp only [List.map_append]
      rw [List.filter_map]
      rfl
    rw [← e] at m2
    refine drop_inv h (a := a) rfl ?_ rfl rfl rfl rfl rfl rfl rfl rfl rfl ?_ ?_
    · intro b hb
      rcases List.mem_append.1 hb with hb | hb
      · exact .inl (List.mem_filter.1 hb).1
      · exact .inr hb
    · intro d hd
      have := hs d hd
      cases d <;> exact this
    · have := free_eq m2
      rw [this] at m2
      exact m2

theorem free_ok (h : Inv s i) {e : Int} (he : e ∈ i.held) :
    ∃ s', freeReservedEntry e s = .ok () s' ∧
      Inv s' { i with reserved := i.reserved.filter (fun a => a.entry ≠ e), free := e :: i.free } := by
  obtain ⟨m, m1, m2, _⟩ := Index.freeReserved_spec h.idx (e := e) (by rw [held_toAbs]; exact he)
  refine ⟨{ s with mappings := m }, onMappings_ok m1, ?_⟩
  refine { idx := ?_, many := h.many, key := fun d => by cases d <;> [exact h.key .left; exact h.key .right]
           sides := fun d hd => by cases d <;> [exact h.sides .left trivial; exact h.sides .right hd]
           ints := ?_
           curs := fun d k hd => by
             have := h.curs d k (by cases d <;> [trivial; exact hd])
             cases d <;> cases k <;> exact this }
  · have e : toAbs { i with reserved := i.reserved.filter (fun a => a.entry ≠ e), free := e :: i.free } =
        { toAbs i with reserved := (toAbs i).reserved.filter (fun r => r.entry ≠ e)
                       free := e :: (toAbs i).free } := by
      unfold toAbs
      simp only
      rw [List.filter_map]
      rfl
    rw [e]
    exact m2
  · intro b hb
    rcases hb with hb | hb
    · exact h.ints b (.inl hb)
    · exact h.ints b (.inr (List.mem_filter.1 hb).1)

end Bi
end Verif
