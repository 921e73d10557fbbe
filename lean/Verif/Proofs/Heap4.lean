import Verif.Proofs.Heap3
set_option linter.unusedSectionVars false
/-! The heap refines the ideal heap: the mutating operations. -/
namespace Verif.HeapProof
open Verif.HeapSpec Verif.Heap
variable {K V : Type}

/-! Insertion -/

theorem insert_stuck {s : Heap K V} {a : Abs K V} (h : Inv s a) (k : K) (hf : a.Full) (hst : a.Stuck) :
    Heap.insert k s = .err .resize s := by
  unfold Heap.insert
  rw [JM.bind_ok (JM.get_apply _)]
  exact JM.bind_err (place_stuck h k hf hst)

/-- Insertion when a cell is available. -/
theorem insert_room {s : Heap K V} {a : Abs K V} (h : Inv s a) (k : K) (hf : ¬ a.Full)
    (hroom : a.live.length < 2 ^ 30) :
    ∃ s', Heap.insert k s = .ok a.entry s' ∧ Inv s' (a.insert k) ∧
      ∀ P, Ordered P s a → P k → Ordered P s' (a.insert k) := by
  have hsz := h.sz
  have hcap := h.cap
  have hul := h.used_le
  have hfc := h.fc
  unfold Heap.insert
  rw [JM.bind_ok (JM.get_apply _)]
  cases hfl : a.freed with
  | nil =>
    have hlt : s.size < s.tree.len := by
      have : ¬ a.cap ≤ a.live.length := fun hc => hf ⟨hfl, hc⟩
      omega
    have he : s.size = a.entry := by unfold Abs.entry; rw [hfl]; simp [hsz]
    obtain ⟨s', e1, e2, e3, e4⟩ := place_spec h k (t := s.size) hlt he hf hroom
      (fc := s.freeCount) (by rw [hfc, hfl]; rfl)
    refine ⟨s', ?_, e2, e4⟩
    rw [JM.bind_ok (place_new h k hfl hlt), JM.bind_ok e1, he]; rfl
  | cons e fs =>
    have hlt : s.size < s.tree.len := by
      have : used a = a.live.length + (fs.length + 1) := by unfold used; rw [hfl]; simp
      omega
    have he : e = a.entry := by unfold Abs.entry; rw [hfl]; rfl
    obtain ⟨s', e1, e2, e3, e4⟩ := place_spec h k (t := e) hlt he hf hroom
      (fc := s.freeCount - 1) (by rw [hfc, hfl]; simp)
    refine ⟨s', ?_, e2, e4⟩
    rw [JM.bind_ok (place_free h k hfl), JM.bind_ok e1, he]; rfl

theorem insert_grow {s : Heap K V} {a : Abs K V} (h : Inv s a) (k : K) (hf : a.Full) (hst : ¬ a.Stuck)
    (hg : ¬ (2 ^ 29 < a.cap ∧ a.cap < 2 ^ 30)) :
    ∃ s', Heap.insert k s = .ok a.entry s' ∧ Inv s' (a.insert k) ∧
      ∀ P, Ordered P s a → P k → Ordered P s' (a.insert k) := by
  have hcap := h.cap
  have hsz := h.sz
  have hul := h.used_le
  have hsl := h.size_le
  have hff := hf.2
  have h1 : a.cap ≠ 2 ^ 29 := fun h => hst (.inr (.inl h))
  have h2 : a.cap ≠ 0 := fun h => hst (.inl h)
  have h3 : ¬ 2 ^ 30 ≤ a.cap := fun h => hst (.inr (.inr h))
  have hcalc := calc_ok s a h hst
  have hlen : a.cap = a.live.length := by omega
  have hn : s.size < min (2 * a.cap) (2 ^ 29) := by omega
  have hins : a.insert k = ({ a with cap := min (2 * a.cap) (2 ^ 29) } : Abs K V).insert k := by
    have hnf : ¬ ({ a with cap := min (2 * a.cap) (2 ^ 29) } : Abs K V).Full := by
      rintro ⟨_, hx⟩
      have : min (2 * a.cap) (2 ^ 29) ≤ a.live.length := hx
      omega
    unfold Abs.insert
    have c1 : a.newCap = min (2 * a.cap) (2 ^ 29) := by unfold Abs.newCap; rw [if_pos hf]
    have c2 : ({ a with cap := min (2 * a.cap) (2 ^ 29) } : Abs K V).newCap = min (2 * a.cap) (2 ^ 29) := by
      unfold Abs.newCap; rw [if_neg hnf]
    rw [c1, c2]; rfl
  have hnf : ¬ ({ a with cap := min (2 * a.cap) (2 ^ 29) } : Abs K V).Full := by
    rintro ⟨_, hx⟩
    have : min (2 * a.cap) (2 ^ 29) ≤ a.live.length := hx
    omega
  have hgi := grown_inv h (n := min (2 * a.cap) (2 ^ 29)) (by omega)
  obtain ⟨s', e1, e2, e3⟩ := insert_room hgi k hnf (by show a.live.length < _; omega)
  refine ⟨s', ?_, by rw [hins]; exact e2, fun P ho hk => by
    rw [hins]; exact e3 P (grown_ordered h ho (by omega)) hk⟩
  have hsize : (grown s (min (2 * a.cap) (2 ^ 29))).size = s.size := rfl
  unfold Heap.insert at e1 ⊢
  rw [JM.bind_ok (JM.get_apply _)] at e1 ⊢
  rw [hsize] at e1
  have hpg := place_grow h k hf.1 (by omega) hn hcalc
  rw [JM.bind_apply] at e1 ⊢
  rw [hpg]
  exact e1

theorem insert_spec {s : Heap K V} {a : Abs K V} (h : Inv s a) (k : K) (hn : ¬ (a.Full ∧ a.Stuck))
    (hroom : a.live.length < 2 ^ 30) (hg : ¬ (a.Full ∧ 2 ^ 29 < a.cap ∧ a.cap < 2 ^ 30)) :
    ∃ s', Heap.insert k s = .ok a.entry s' ∧ Inv s' (a.insert k) ∧
      ∀ P, Ordered P s a → P k → Ordered P s' (a.insert k) := by
  by_cases hf : a.Full
  · exact insert_grow h k hf (fun hs => hn ⟨hf, hs⟩) (fun hx => hg ⟨hf, hx⟩)
  · exact insert_room h k hf hroom

/-- Writing a value. -/
theorem setVal_inv {s : Heap K V} {a : Abs K V} (h : Inv s a) {e : Int} (he : 0 ≤ e ∧ e < a.cap) (v : V) :
    Inv { s with values := s.values.set e v } { a with valOf := upd a.valOf e v } := by
  have hcap := h.cap
  exact { h with
    good := ⟨h.good.il, h.good.kl, h.good.ml, h.good.at'⟩
    vals := fun x h0 h1 => by
      show (s.values.set e v).get x = upd a.valOf e v x
      unfold upd
      split
      · rename_i hx; rw [hx, Arr.get_set_self]
      · rename_i hx; rw [Arr.get_set_ne _ _ hx]; exact h.vals x h0 h1
    valsB := fun x h0 => by
      have h0' : (s.tree.len : Int) ≤ x := h0
      show upd a.valOf e v x = _
      unfold upd
      rw [if_neg (by omega)]
      exact h.valsB x h0' }

theorem setVal_ordered {P : K → Prop} {s : Heap K V} {a : Abs K V} (h : Ordered P s a) (e : Int) (v : V) :
    Ordered P { s with values := s.values.set e v } { a with valOf := upd a.valOf e v } :=
  ⟨h.tot, h.keys, h.ord⟩

theorem entry_insert_rng {s : Heap K V} {a : Abs K V} {k : K} (h : Inv s (a.insert k)) :
    0 ≤ a.entry ∧ a.entry < (a.insert k).cap := by
  have h1 := h.rng a.entry (.inl (List.mem_cons_self))
  have h2 := h.used_le
  have h3 := h.cap
  omega

theorem insertKV_spec {s : Heap K V} {a : Abs K V} (h : Inv s a) (k : K) (v : V) (hn : ¬ (a.Full ∧ a.Stuck))
    (hroom : a.live.length < 2 ^ 30) (hg : ¬ (a.Full ∧ 2 ^ 29 < a.cap ∧ a.cap < 2 ^ 30)) :
    ∃ s', insertKV k v s = .ok a.entry s' ∧
      Inv s' { a.insert k with valOf := upd a.valOf a.entry v } ∧
      ∀ P, Ordered P s a → P k → Ordered P s' { a.insert k with valOf := upd a.valOf a.entry v } := by
  obtain ⟨s', e1, e2, e3⟩ := insert_spec h k hn hroom hg
  have hr := entry_insert_rng e2
  have hcap := e2.cap
  have hvl := e2.vl
  unfold insertKV
  rw [JM.bind_ok e1, JM.bind_ok (wr_ok _ _ (by omega))]
  exact ⟨_, rfl, setVal_inv e2 hr v, fun P ho hk => setVal_ordered (e3 P ho hk) _ _⟩

/-! Sifting in place -/

/-- Rearranging the first `size` positions keeps the invariant. -/
theorem resift_inv {s s' : Heap K V} {a : Abs K V} (h : Inv s a) (hs : Sifted s s' s.tree.get (used a))
    (hg : Good s' (used a)) (him : SameImage s.tree.get s'.tree.get s.size)
    (hrest : ∀ p, s.size ≤ p → s'.tree.get p = s.tree.get p) : Inv s' a := by
  obtain ⟨⟨A, I, hsh⟩, tl, il, frm⟩ := hs
  have hkeys : s'.keys = s.keys := by rw [hsh]
  have hvals : s'.values = s.values := by rw [hsh]
  have hsize : s'.size = s.size := by rw [hsh]
  exact {
    vl := by rw [hvals, tl]; exact h.vl
    cap := by rw [tl]; exact h.cap
    sz := by rw [hsize]; exact h.sz
    fc := by rw [hsh]; exact h.fc
    nd := h.nd
    mem := fun e => by rw [h.mem e, hsize]; exact (him e).symm
    fr := fun i hi => by rw [h.fr i hi, hsize, hrest _ (by omega)]
    good := hg
    rng := h.rng
    all := h.all
    unused := fun e h0 h1 => by
      rw [frm e fun p p0 p1 hp => ?_]
      · exact h.unused e h0 (by omega)
      · have := h.tree_rng p0 p1; omega
    big := h.big
    keys := fun e h0 h1 => by rw [hkeys]; exact h.keys e h0 (by omega)
    vals := fun e h0 h1 => by rw [hvals]; exact h.vals e h0 (by omega)
    keysB := fun e h0 => h.keysB e (by omega)
    valsB := fun e h0 => h.valsB e (by omega)
    cmp := by rw [hsh]; exact h.cmp
    dk := by rw [hsh]; exact h.dk
    dv := by rw [hsh]; exact h.dv }

theorem upd_self {β : Type} (f : Int → β) (i : Int) : upd f i (f i) = f := by
  funext j; unfold upd; split
  · rename_i h; rw [h]
  · rfl

/-- Keys of entries in the heap. -/
theorem within_keys {P : K → Prop} {s : Heap K V} {a : Abs K V} (h : Inv s a)
    (hk : ∀ e ∈ a.live, P (a.keyOf e)) : Within (fun e => P (s.keys.get e)) s.tree.get s.size := by
  intro p h0 h1
  have hsl := h.size_le
  have hr := h.tree_rng h0 (by omega : p < used a)
  have hul := h.used_le
  show P (s.keys.get (s.tree.get p))
  rw [h.keys _ hr.1 (by omega)]
  exact hk _ (h.live_at h0 h1)

/-- Writing a key. -/
theorem setKey_inv {s : Heap K V} {a : Abs K V} (h : Inv s a) {e : Int} (he : 0 ≤ e ∧ e < a.cap) (k : K) :
    Inv { s with keys := s.keys.set e k } { a with keyOf := upd a.keyOf e k } := by
  have hcap := h.cap
  exact { h with
    good := ⟨h.good.il, h.good.kl, h.good.ml, h.good.at'⟩
    keys := fun x h0 h1 => by
      show (s.keys.set e k).get x = upd a.keyOf e k x
      unfold upd
      split
      · rename_i hx; rw [hx, Arr.get_set_self]
      · rename_i hx; rw [Arr.get_set_ne _ _ hx]; exact h.keys x h0 h1
    keysB := fun x h0 => by
      have h0' : (s.tree.len : Int) ≤ x := h0
      show upd a.keyOf e k x = _
      unfold upd
      rw [if_neg (by omega)]
      exact h.keysB x h0' }

theorem resetKey_live {s : Heap K V} {a : Abs K V} (h : Inv s a) {e : Int} (k : K) (he : e ∈ a.live) :
    ∃ s', resetKey e k s = .ok () s' ∧ Inv s' { a with keyOf := upd a.keyOf e k } ∧
      ∀ P, Ordered P s a → P k → Ordered P s' { a with keyOf := upd a.keyOf e k } := by
  have hr := h.rng e (.inl he)
  have hul := h.used_le
  have hcap := h.cap
  have hil := h.good.il
  have hkl := h.good.kl
  obtain ⟨n0, n1, n2⟩ := h.inv_live he
  have hsl := h.size_le
  have h1 := setKey_inv h (e := e) (by omega) k
  have hpos := h1.good.pos (c := s.inverse.get e) ⟨n0, by show _ < used a; omega⟩
  have htree : (({ s with keys := s.keys.set e k } : Heap K V)).tree = s.tree := rfl
  rw [htree, n2] at hpos
  obtain ⟨s', e1, e2, e3, e4, e5, e6⟩ := sift_spec h1.big _ hpos n0 n1 hsl
  have hT : upd s.tree.get (s.inverse.get e) e = s.tree.get := by
    have := upd_self s.tree.get (s.inverse.get e)
    rwa [n2] at this
  rw [htree, hT] at e2 e4 e6
  have hkt : ({ s with keys := s.keys.set e k } : Heap K V).keys.get e = k := Arr.get_set_self _ _ _
  rw [hkt] at e1
  refine ⟨s', ?_, resift_inv h1 e2 e3 e4 e5, ?_⟩
  · unfold resetKey
    rw [JM.bind_ok (wr_ok _ _ (by omega)), JM.bind_ok (rd_ok _ (by
      show 0 ≤ e ∧ e < (s.inverse.len : Int); omega))]
    exact e1
  · intro P ho hk
    obtain ⟨⟨A, I, hsh⟩, _⟩ := e2
    have hkeysP : ∀ x ∈ a.live, P (upd a.keyOf e k x) := by
      intro x hx
      unfold upd; split
      · exact hk
      · exact ho.keys x hx
    refine ⟨by rw [hsh]; exact ho.tot, hkeysP, ?_⟩
    have hce : ce s' = ce ({ s with keys := s.keys.set e k } : Heap K V) := by rw [hsh]
    have hsize : s'.size = s.size := by rw [hsh]
    rw [hce, hsize]
    have hne : ∀ p, 0 ≤ p → p < s.size → p ≠ s.inverse.get e → s.tree.get p ≠ e := by
      intro p p0 p1 hp hx
      exact hp (h.inj ⟨p0, by omega⟩ ⟨n0, by omega⟩ (hx.trans n2.symm))
    have hk' : ∀ p, 0 ≤ p → p < s.size → p ≠ s.inverse.get e →
        ({ s with keys := s.keys.set e k } : Heap K V).keys.get (s.tree.get p) = s.keys.get (s.tree.get p) :=
      fun p p0 p1 hp => Arr.get_set_ne _ _ (hne p p0 p1 hp)
    refine e6 (fun x => P ((s.keys.set e k).get x)) (pre_of (s := ({ s with keys := s.keys.set e k } : Heap K V)) ho.tot)
      (within_keys h1 hkeysP) ⟨?_, ?_⟩
    · intro p p0 p1 hp hq
      have hq0 : 0 ≤ par p ∧ par p < p := by simp only [par]; omega
      have p1' : p < s.size := p1
      show s.comp.compare _ _ ≤ 0
      rw [hk' p (by omega) p1' hp, hk' (par p) hq0.1 (by omega) hq]
      exact ho.ord p p0 p1'
    · intro p p0 p1 hq hc
      have p1' : p < s.size := p1
      have hq0 : 0 ≤ par p ∧ par p < p := by simp only [par]; omega
      have hc0 : 0 ≤ par (s.inverse.get e) ∧ par (s.inverse.get e) < s.inverse.get e := by
        simp only [par]; omega
      show s.comp.compare _ _ ≤ 0
      rw [hk' p (by omega) p1' (by omega), hk' _ hc0.1 (by omega) (by omega)]
      have o1 := ho.ord p p0 p1'
      have o2 := ho.ord (s.inverse.get e) hc n1
      rw [hq] at o1
      have hw := within_keys h ho.keys
      exact (pre_of ho.tot).trans _ _ _ (hw _ hc0.1 (by omega)) (hw _ n0 n1) (hw p (by omega) p1') o2 o1

/-! Comparator -/

theorem rebuild_spec {a : Abs K V} : ∀ (n : Nat) (s : Heap K V) (i : Int), Inv s a → 0 ≤ i → i + n = s.size →
    ∃ s', rebuildLoop n i s = .ok () s' ∧ Inv s' a ∧ s'.size = s.size ∧ s'.comp = s.comp ∧
      ∀ P, TotalOn P s.comp.compare → (∀ e ∈ a.live, P (a.keyOf e)) → Ord (ce s) s.tree.get i →
        Ord (ce s') s'.tree.get s'.size
  | 0, s, i, h, h0, hn => ⟨s, rfl, h, rfl, rfl, fun P _ _ ho => by
      have : i = s.size := by omega
      rwa [this] at ho⟩
  | n + 1, s, i, h, h0, hn => by
    have hsl := h.size_le
    have hul := h.used_le
    have hkl := h.good.kl
    have hi : i < s.size := by omega
    have hr := h.tree_rng h0 (by omega : i < used a)
    have hpos := h.good.pos (c := i) ⟨h0, by omega⟩
    obtain ⟨s1, e1, e2, e3, e4⟩ := filterUp_spec s hpos h0 (by omega)
    rw [upd_self] at e1 e2 e4
    obtain ⟨⟨b1, b2⟩, b3, b4, b5⟩ := up_basic (ce s) i.toNat s.tree.get i h0
    have hsame : SameImage s.tree.get s1.tree.get s.size := by rw [e4]; exact b5 _ hi
    have hinv : Inv s1 a := resift_inv h e2 e3 hsame (fun p hp => by rw [e4, b4 p (by omega)])
    obtain ⟨⟨A, I, hsh⟩, _⟩ := e2
    have hsize : s1.size = s.size := by rw [hsh]
    have hcomp : s1.comp = s.comp := by rw [hsh]
    have hce : ce s1 = ce s := by rw [hsh]
    obtain ⟨s', f1, f2, f3, f4, f5⟩ := rebuild_spec n s1 (i + 1) hinv (by omega) (by omega)
    refine ⟨s', ?_, f2, by rw [f3, hsize], by rw [f4, hcomp], fun P hT hk ho => ?_⟩
    · rw [rebuildLoop, JM.bind_ok (rd_ok _ (by omega)), JM.bind_ok (rd_ok _ (by omega)), JM.bind_ok e1]
      exact f1
    · refine f5 P (by rw [hcomp]; exact hT) hk ?_
      rw [hce, e4]
      have hw := within_keys h hk
      refine up_ord (pre_of hT) _ _ _ h0 (by omega) (by omega) (fun p p0 p1 => hw p p0 (by omega)) ⟨?_, ?_⟩
      · intro p p0 p1 hne
        exact ho p p0 (by omega)
      · intro p p0 p1 hq
        simp only [par] at hq; omega

theorem setComparator_spec {s : Heap K V} {a : Abs K V} (h : Inv s a) (c : Comparator K)
    (hc : c.ref = a.cmp.ref → c = a.cmp) :
    ∃ s', setComparator (some c) s = .ok () s' ∧ Inv s' { a with cmp := c } ∧
      ∀ P, Ordered P s a → TotalOn P c.compare → Ordered P s' { a with cmp := c } := by
  have hcmp := h.cmp
  unfold setComparator
  simp only
  rw [JM.bind_ok (JM.get_apply _)]
  by_cases hr : s.comp.ref = c.ref
  · rw [if_pos hr]
    have : c = a.cmp := hc (by rw [← hr, hcmp])
    subst this
    exact ⟨s, rfl, h, fun P ho _ => ho⟩
  · rw [if_neg hr]
    have h1 : Inv { s with comp := c } { a with cmp := c } := { h with
      good := ⟨h.good.il, h.good.kl, h.good.ml, h.good.at'⟩
      cmp := rfl }
    have hs0 : 0 ≤ s.size := by rw [h.sz]; omega
    obtain ⟨s', e1, e2, e3, e4, e5⟩ := rebuild_spec s.size.toNat _ 0 h1 (by omega) (by
      show _ = s.size; omega)
    rw [JM.bind_ok (JM.modify_apply _ _), JM.bind_ok e1]
    refine ⟨_, rfl, { e2 with good := ⟨e2.good.il, e2.good.kl, e2.good.ml, e2.good.at'⟩ }, fun P ho hT => ?_⟩
    refine ⟨by show TotalOn P s'.comp.compare; rw [e4]; exact hT, ho.keys, ?_⟩
    exact e5 P hT ho.keys (fun p p0 p1 => by omega)

/-! Removal -/

/-- The state of `removeAt` before the last entry is put in the hole. -/
def unplaced (s : Heap K V) (e : Int) : Heap K V := { s with
  keys := s.keys.set e s.defaultKey
  values := s.values.set e s.defaultValue
  size := s.size - 1
  freeCount := s.freeCount + 1
  tree := s.tree.set (s.size - 1) e
  inverse := s.inverse.set e (s.size - 1) }

/-- The ideal heap after a removal. -/
def Abs.gone (a : Abs K V) (e : Int) : Abs K V := { a with
  live := a.live.erase e, freed := e :: a.freed, keyOf := upd a.keyOf e a.dk, valOf := upd a.valOf e a.dv }

theorem used_gone {a : Abs K V} {e : Int} (he : e ∈ a.live) : used (Abs.gone a e) = used a := by
  unfold used Abs.gone
  simp only [List.length_cons, List.length_erase_of_mem he]
  have := List.length_pos_of_mem he
  omega

/-- Bookkeeping of a removal, whatever order the first positions end up in. -/
theorem gone_inv {s s' : Heap K V} {a : Abs K V} (h : Inv s a) {e : Int} (he : e ∈ a.live)
    (hsh : ∃ A I, s' = { unplaced s e with tree := A, inverse := I })
    (tl : s'.tree.len = s.tree.len) (hg : Good s' (used a))
    (him : ∀ x, (∃ p, 0 ≤ p ∧ p < s.size - 1 ∧ s'.tree.get p = x) ↔ x ∈ a.live ∧ x ≠ e)
    (hat : s'.tree.get (s.size - 1) = e) (hrest : ∀ p, s.size ≤ p → s'.tree.get p = s.tree.get p)
    (hun : ∀ x, used a ≤ x → s'.inverse.get x = s.inverse.get x) : Inv s' (Abs.gone a e) := by
  obtain ⟨A, I, hs'⟩ := hsh
  have hu := used_gone he
  have hsize : s'.size = s.size - 1 := by rw [hs']; rfl
  have hkeys : s'.keys = s.keys.set e s.defaultKey := by rw [hs']; rfl
  have hvals : s'.values = s.values.set e s.defaultValue := by rw [hs']; rfl
  have hlen := List.length_erase_of_mem he
  have hpos := List.length_pos_of_mem he
  have hsz := h.sz
  have hr := h.rng e (.inl he)
  have hul := h.used_le
  exact {
    vl := by rw [hvals, tl]; exact h.vl
    cap := by rw [tl]; exact h.cap
    sz := by rw [hsize, hsz]; show _ = ((a.live.erase e).length : Int); omega
    fc := by
      rw [hs']
      show s.freeCount + 1 = ((e :: a.freed).length : Int)
      rw [h.fc]; simp
    nd := h.nd.erase e
    mem := fun x => by
      show x ∈ a.live.erase e ↔ _
      rw [h.nd.mem_erase_iff, hsize, him x, and_comm]
    fr := fun i hi => by
      show (e :: a.freed)[i]? = _
      have hi' : i < a.freed.length + 1 := hi
      rw [hsize]
      cases i with
      | zero => rw [List.getElem?_cons_zero]; simp [hat]
      | succ i =>
        rw [List.getElem?_cons_succ, h.fr i (by omega), hrest _ (by omega)]
        congr 2; push_cast; omega
    good := by rw [hu]; exact hg
    rng := fun x hx => by
      rw [hu]
      rcases hx with hx | hx
      · exact h.rng x (.inl (List.mem_of_mem_erase hx))
      · rcases List.mem_cons.mp hx with rfl | hx
        · exact hr
        · exact h.rng x (.inr hx)
    all := fun x h0 h1 => by
      rw [hu] at h1
      show x ∈ a.live.erase e ∨ x ∈ e :: a.freed
      rcases h.all x h0 h1 with hx | hx
      · by_cases hxe : x = e
        · right; rw [hxe]; exact List.mem_cons_self
        · left; rw [h.nd.mem_erase_iff]; exact ⟨hxe, hx⟩
      · right; exact List.mem_cons_of_mem _ hx
    unused := fun x h0 h1 => by
      rw [hu] at h0
      rw [hun x h0]
      exact h.unused x h0 (by omega)
    big := by rw [hu]; exact h.big
    keys := fun x h0 h1 => by
      rw [hkeys]
      show (s.keys.set e s.defaultKey).get x = upd a.keyOf e a.dk x
      unfold upd
      split
      · rename_i hx; rw [hx, Arr.get_set_self]; exact h.dk
      · rename_i hx; rw [Arr.get_set_ne _ _ hx]; exact h.keys x h0 (by omega)
    vals := fun x h0 h1 => by
      rw [hvals]
      show (s.values.set e s.defaultValue).get x = upd a.valOf e a.dv x
      unfold upd
      split
      · rename_i hx; rw [hx, Arr.get_set_self]; exact h.dv
      · rename_i hx; rw [Arr.get_set_ne _ _ hx]; exact h.vals x h0 (by omega)
    keysB := fun x h0 => by
      show upd a.keyOf e a.dk x = a.dk
      unfold upd; rw [if_neg (by omega)]; exact h.keysB x (by omega)
    valsB := fun x h0 => by
      show upd a.valOf e a.dv x = a.dv
      unfold upd; rw [if_neg (by omega)]; exact h.valsB x (by omega)
    cmp := by rw [hs']; exact h.cmp
    dk := by rw [hs']; exact h.dk
    dv := by rw [hs']; exact h.dv }

theorem removeAt_prefix {s : Heap K V} {a : Abs K V} (h : Inv s a) {e : Int} (he : e ∈ a.live) :
    removeAt e s =
      if s.inverse.get e = s.size - 1 then .ok () (unplaced s e)
      else (do
        let at' ← filterUp (s.inverse.get e) ((s.keys.set e s.defaultKey).get (s.tree.get (s.size - 1)))
          (s.tree.get (s.size - 1))
        filterDown at' ((s.keys.set e s.defaultKey).get (s.tree.get (s.size - 1)))
          (s.tree.get (s.size - 1)) : JM (Heap K V) Unit) (unplaced s e) := by
  have hr := h.rng e (.inl he)
  have hul := h.used_le
  have hil := h.good.il
  have hkl := h.good.kl
  have hvl := h.vl
  have hsl := h.size_le
  have hsz := h.sz
  have hpos := List.length_pos_of_mem he
  obtain ⟨n0, n1, n2⟩ := h.inv_live he
  have hl := h.tree_rng (p := s.size - 1) (by omega) (by omega)
  unfold removeAt
  rw [JM.bind_ok (JM.get_apply _), if_neg (by omega), JM.bind_ok (rd_ok _ (by omega)), if_neg (by omega)]
  rw [JM.bind_ok (wr_ok _ _ (by omega))]
  unfold clearValueAt
  rw [JM.bind_ok (s' := { s with
      keys := s.keys.set e s.defaultKey
      values := s.values.set e s.defaultValue }) (a := ()) (by
    rw [JM.bind_ok (JM.get_apply _)]
    exact wr_ok _ _ (by show 0 ≤ e ∧ e < (s.values.len : Int); omega))]
  rw [JM.bind_ok (JM.modify_apply _ _)]
  simp only
  rw [JM.bind_ok (rd_ok _ (by show 0 ≤ s.size - 1 ∧ s.size - 1 < (s.tree.len : Int); omega))]
  rw [JM.bind_ok (rd_ok _ (by
    show 0 ≤ s.tree.get (s.size - 1) ∧ s.tree.get (s.size - 1) < (s.keys.len : Int); omega))]
  rw [JM.bind_ok (JM.modify_apply _ _)]
  rw [JM.bind_ok (wr_ok _ _ (by show 0 ≤ s.size - 1 ∧ s.size - 1 < (s.tree.len : Int); omega))]
  rw [JM.bind_ok (wr_ok _ _ (by show 0 ≤ e ∧ e < (s.inverse.len : Int); omega))]
  split
  · rfl
  · rfl

theorem removeAt_live {s : Heap K V} {a : Abs K V} (h : Inv s a) {e : Int} (he : e ∈ a.live) :
    ∃ s', removeAt e s = .ok () s' ∧ Inv s' (Abs.gone a e) ∧
      ∀ P, Ordered P s a → Ordered P s' (Abs.gone a e) := by
  have hr := h.rng e (.inl he)
  have hul := h.used_le
  have hil := h.good.il
  have hkl := h.good.kl
  have hvl := h.vl
  have hsl := h.size_le
  have hsz := h.sz
  have hpos := List.length_pos_of_mem he
  obtain ⟨n0, n1, n2⟩ := h.inv_live he
  have hl := h.tree_rng (p := s.size - 1) (by omega) (by omega)
  have hkP : ∀ P : K → Prop, (∀ x ∈ a.live, P (a.keyOf x)) → ∀ x ∈ a.live.erase e, P (upd a.keyOf e a.dk x) := by
    intro P hk x hx
    rw [h.nd.mem_erase_iff] at hx
    unfold upd; rw [if_neg hx.1]; exact hk x hx.2
  rw [removeAt_prefix h he]
  have hne : ∀ p, 0 ≤ p → p < used a → p ≠ s.inverse.get e → s.tree.get p ≠ e := by
    intro p p0 p1 hp hx
    exact hp (h.inj ⟨p0, p1⟩ ⟨n0, by omega⟩ (hx.trans n2.symm))
  have hT : ∀ p, p ≠ s.size - 1 → (unplaced s e).tree.get p = s.tree.get p :=
    fun p hp => Arr.get_set_ne _ _ hp
  have hTs : (unplaced s e).tree.get (s.size - 1) = e := Arr.get_set_self _ _ _
  have hI : ∀ x, x ≠ e → (unplaced s e).inverse.get x = s.inverse.get x :=
    fun x hx => Arr.get_set_ne _ _ hx
  have hIs : (unplaced s e).inverse.get e = s.size - 1 := Arr.get_set_self _ _ _
  by_cases hlast : s.inverse.get e = s.size - 1
  · rw [if_pos hlast]
    have htree : ∀ p, (unplaced s e).tree.get p = s.tree.get p := by
      intro p
      by_cases hp : p = s.size - 1
      · rw [hp, hTs, ← hlast, n2]
      · exact hT p hp
    refine ⟨_, rfl, ?_, fun P ho => ?_⟩
    · refine gone_inv h he ⟨_, _, rfl⟩ rfl ⟨hil, hkl, hul, fun p p0 p1 => ?_⟩ (fun x => ?_) hTs
        (fun p hp => htree p) (fun x hx => hI x (by omega))
      · rw [htree]
        obtain ⟨g1, g2⟩ := h.good.at' p p0 p1
        refine ⟨g1, ?_⟩
        by_cases hpe : s.tree.get p = e
        · rw [hpe, hIs, ← hlast, ← hpe, g2]
        · rw [hI _ hpe, g2]
      · constructor
        · rintro ⟨p, p0, p1, p2⟩
          rw [htree] at p2
          rw [← p2]
          exact ⟨h.live_at p0 (by omega), hne p p0 (by omega) (by omega)⟩
        · rintro ⟨hx, hxe⟩
          obtain ⟨p, p0, p1, p2⟩ := (h.mem x).1 hx
          have : p ≠ s.size - 1 := by
            rintro rfl
            rw [← hlast, n2] at p2; exact hxe p2.symm
          exact ⟨p, p0, by omega, by rw [htree]; exact p2⟩
    · refine ⟨ho.tot, hkP P ho.keys, fun p p0 p1 => ?_⟩
      have p1' : p < s.size - 1 := p1
      have hq0 : 0 ≤ par p ∧ par p < p := by simp only [par]; omega
      rw [htree, htree]
      show s.comp.compare ((s.keys.set e s.defaultKey).get _) ((s.keys.set e s.defaultKey).get _) ≤ 0
      rw [Arr.get_set_ne _ _ (hne p (by omega) (by omega) (by omega)),
        Arr.get_set_ne _ _ (hne _ hq0.1 (by omega) (by omega))]
      exact ho.ord p p0 (by omega)
  · rw [if_neg hlast]
    have hle : s.tree.get (s.size - 1) ≠ e := hne _ (by omega) (by omega) (fun hx => hlast hx.symm)
    have hpos : Pos (unplaced s e) (used a) (s.inverse.get e) (s.tree.get (s.size - 1)) := by
      refine ⟨hil, hkl, hul, ?_, fun p p0 p1 hp => ?_⟩
      · show _ ∧ _ < (s.tree.len : Int); omega
      · show (0 ≤ (unplaced s e).tree.get p ∧ (unplaced s e).tree.get p < (s.tree.len : Int)) ∧ _
        by_cases hps : p = s.size - 1
        · rw [hps, hTs, hIs]
          exact ⟨by omega, rfl, fun hx => hle hx.symm⟩
        · rw [hT p hps, hI _ (hne p p0 p1 hp)]
          obtain ⟨g1, g2⟩ := h.good.at' p p0 p1
          exact ⟨g1, g2, fun hx => hps (h.inj ⟨p0, p1⟩ ⟨by omega, by omega⟩ hx)⟩
    have hsu : (unplaced s e).size = s.size - 1 := rfl
    obtain ⟨s', e1, ⟨hsh, tl, il, frm⟩, e3, e4, e5, e6⟩ :=
      sift_spec h.big (unplaced s e) hpos n0 (by rw [hsu]; omega) (by rw [hsu]; omega)
    rw [hsu] at e4 e5 e6
    refine ⟨s', e1, ?_, fun P ho => ?_⟩
    · refine gone_inv h he hsh tl e3 (fun x => ?_) (by rw [e5 _ (Int.le_refl _)]; exact hTs)
        (fun p hp => by rw [e5 p (by omega)]; exact hT p (by omega)) (fun x hx => ?_)
      · rw [e4 x]
        constructor
        · rintro ⟨p, p0, p1, p2⟩
          unfold upd at p2
          split at p2
          · rw [← p2]; exact ⟨h.live_at (by omega) (by omega), hle⟩
          · rename_i hp
            rw [hT p (by omega)] at p2
            rw [← p2]
            exact ⟨h.live_at p0 (by omega), hne p p0 (by omega) hp⟩
        · rintro ⟨hx, hxe⟩
          obtain ⟨p, p0, p1, p2⟩ := (h.mem x).1 hx
          have hpn : p ≠ s.inverse.get e := by rintro rfl; exact hxe (p2.symm.trans n2)
          by_cases hps : p = s.size - 1
          · refine ⟨s.inverse.get e, n0, by omega, ?_⟩
            unfold upd; rw [if_pos rfl, ← p2, hps]
          · refine ⟨p, p0, by omega, ?_⟩
            unfold upd; rw [if_neg hpn, hT p hps]; exact p2
      · rw [frm x fun p p0 p1 hp => ?_, hI x (by omega)]
        unfold upd at hp
        split at hp
        · omega
        · by_cases hps : p = s.size - 1
          · rw [hps, hTs] at hp; omega
          · rw [hT p hps] at hp
            have := h.tree_rng p0 p1; omega
    · obtain ⟨A, I, hs'⟩ := hsh
      refine ⟨by rw [hs']; exact ho.tot, hkP P ho.keys, ?_⟩
      have hce : ce s' = ce (unplaced s e) := by rw [hs']
      have hsz' : s'.size = s.size - 1 := by rw [hs']; rfl
      rw [hce, hsz']
      have hw := within_keys h ho.keys
      -- the key at a position other than the hole
      have hTk : ∀ p, 0 ≤ p → p < s.size - 1 → p ≠ s.inverse.get e →
          (unplaced s e).keys.get (upd (unplaced s e).tree.get (s.inverse.get e) (s.tree.get (s.size - 1)) p) =
            s.keys.get (s.tree.get p) := by
        intro p p0 p1 hp
        unfold upd
        rw [if_neg hp, hT p (by omega)]
        exact Arr.get_set_ne _ _ (hne p p0 (by omega) hp)
      refine e6 (fun x => P ((unplaced s e).keys.get x)) (pre_of (s := unplaced s e) ho.tot) ?_ ⟨?_, ?_⟩
      · intro p p0 p1
        show P _
        by_cases hp : p = s.inverse.get e
        · have : (unplaced s e).keys.get (s.tree.get (s.size - 1)) = s.keys.get (s.tree.get (s.size - 1)) :=
            Arr.get_set_ne _ _ hle
          unfold upd
          rw [if_pos hp, this]
          exact hw _ (by omega) (by omega)
        · rw [hTk p p0 p1 hp]
          exact hw p p0 (by omega)
      · intro p p0 p1 hp hq
        have hq0 : 0 ≤ par p ∧ par p < p := by simp only [par]; omega
        show s.comp.compare _ _ ≤ 0
        rw [hTk p (by omega) p1 hp, hTk _ hq0.1 (by omega) hq]
        exact ho.ord p p0 (by omega)
      · intro p p0 p1 hq hc
        have hq0 : 0 ≤ par p ∧ par p < p := by simp only [par]; omega
        have hc0 : 0 ≤ par (s.inverse.get e) ∧ par (s.inverse.get e) < s.inverse.get e := by
          simp only [par]; omega
        show s.comp.compare _ _ ≤ 0
        rw [hTk p (by omega) p1 (by omega), hTk _ hc0.1 (by omega) (by omega)]
        have o1 := ho.ord p p0 (by omega)
        have o2 := ho.ord (s.inverse.get e) hc n1
        rw [hq] at o1
        exact (pre_of ho.tot).trans _ _ _ (hw _ hc0.1 (by omega)) (hw _ n0 n1) (hw p (by omega) (by omega)) o2 o1

theorem removeAt_range {s : Heap K V} {a : Abs K V} (h : Inv s a) {e : Int} (he : e < 0 ∨ a.cap ≤ e) :
    removeAt e s = .err .rangeCheck s := by
  have hil := h.good.il
  have hcap := h.cap
  unfold removeAt
  rw [JM.bind_ok (JM.get_apply _), if_pos (by omega)]; rfl

theorem removeAt_dead {s : Heap K V} {a : Abs K V} (h : Inv s a) {e : Int} (he : 0 ≤ e ∧ e < a.cap)
    (hn : e ∉ a.live) (hg : a.live = [] ∨ e < used a) : removeAt e s = .err .invalidEntry s := by
  have hil := h.good.il
  have hcap := h.cap
  have hsz := h.sz
  have hnode : s.size ≤ s.inverse.get e := by
    by_cases hu : e < used a
    · rcases h.all e he.1 hu with hx | hx
      · exact absurd hx hn
      · exact h.inv_freed hx
    · rcases hg with hg | hg
      · rw [h.unused e (by omega) (by omega), hsz, hg]; simp
      · exact absurd hg hu
  unfold removeAt
  rw [JM.bind_ok (JM.get_apply _), if_neg (by omega), JM.bind_ok (rd_ok _ (by omega)), if_pos (by omega)]; rfl

end Verif.HeapProof
