import Verif.Proofs.Heap2
set_option linter.unusedSectionVars false
/-! The heap refines the ideal heap: invariant, insertion. -/
namespace Verif.HeapProof
open Verif.HeapSpec Verif.Heap
variable {K V : Type}

/-- Entries ever handed out. -/
def used (a : Abs K V) : Int := a.live.length + a.freed.length

structure Inv (s : Heap K V) (a : Abs K V) : Prop where
  vl : s.values.len = s.tree.len
  cap : a.cap = s.tree.len
  sz : s.size = a.live.length
  fc : s.freeCount = a.freed.length
  nd : a.live.Nodup
  mem : ∀ e, e ∈ a.live ↔ ∃ p, 0 ≤ p ∧ p < s.size ∧ s.tree.get p = e
  fr : ∀ i : Nat, i < a.freed.length → a.freed[i]? = some (s.tree.get (s.size + i))
  good : Good s (used a)
  rng : ∀ e, e ∈ a.live ∨ e ∈ a.freed → 0 ≤ e ∧ e < used a
  all : ∀ e, 0 ≤ e → e < used a → e ∈ a.live ∨ e ∈ a.freed
  unused : ∀ e : Int, used a ≤ e → e < s.tree.len → s.inverse.get e = 0
  big : used a ≤ 1073741824
  keys : ∀ e : Int, 0 ≤ e → e < s.tree.len → s.keys.get e = a.keyOf e
  vals : ∀ e : Int, 0 ≤ e → e < s.tree.len → s.values.get e = a.valOf e
  keysB : ∀ e : Int, (s.tree.len : Int) ≤ e → a.keyOf e = a.dk
  valsB : ∀ e : Int, (s.tree.len : Int) ≤ e → a.valOf e = a.dv
  cmp : s.comp = a.cmp
  dk : s.defaultKey = a.dk
  dv : s.defaultValue = a.dv

/-- The tree is in order, for a comparator that orders the keys satisfying `P`. -/
structure Ordered (P : K → Prop) (s : Heap K V) (a : Abs K V) : Prop where
  tot : TotalOn P s.comp.compare
  keys : ∀ e ∈ a.live, P (a.keyOf e)
  ord : Ord (ce s) s.tree.get s.size

theorem pre_of {P : K → Prop} {s : Heap K V} (h : TotalOn P s.comp.compare) :
    Pre (fun e => P (s.keys.get e)) (ce s) :=
  ⟨fun a b ha hb => h.symm _ _ ha hb, fun x y z hx hy hz => h.trans _ _ _ hx hy hz⟩

namespace Inv
variable {s : Heap K V} {a : Abs K V}

theorem live_at (h : Inv s a) {p : Int} (h0 : 0 ≤ p) (h1 : p < s.size) : s.tree.get p ∈ a.live :=
  (h.mem _).2 ⟨p, h0, h1, rfl⟩

theorem used_le (h : Inv s a) : used a ≤ s.tree.len := h.good.ml

theorem size_le (h : Inv s a) : s.size ≤ used a := by rw [h.sz]; unfold used; omega

theorem freed_at (h : Inv s a) {p : Int} (h0 : s.size ≤ p) (h1 : p < used a) : s.tree.get p ∈ a.freed := by
  have := h.sz
  unfold used at h1
  have h2 := h.fr (p - s.size).toNat (by omega)
  have h3 := List.mem_of_getElem? h2
  rwa [show s.size + ((p - s.size).toNat : Int) = p by omega] at h3

/-- The position of a freed entry. -/
theorem freed_pos (h : Inv s a) {e : Int} (he : e ∈ a.freed) :
    ∃ p, s.size ≤ p ∧ p < used a ∧ s.tree.get p = e := by
  obtain ⟨i, hi, rfl⟩ := List.mem_iff_getElem.mp he
  have h2 := h.fr i hi
  rw [List.getElem?_eq_getElem hi, Option.some.injEq] at h2
  have := h.sz
  exact ⟨s.size + i, by omega, by unfold used; omega, h2.symm⟩

theorem inj (h : Inv s a) {p q : Int} (hp : 0 ≤ p ∧ p < used a) (hq : 0 ≤ q ∧ q < used a)
    (he : s.tree.get p = s.tree.get q) : p = q := by
  rw [← (h.good.at' p hp.1 hp.2).2, he, (h.good.at' q hq.1 hq.2).2]

theorem disj (h : Inv s a) {e : Int} (h1 : e ∈ a.live) (h2 : e ∈ a.freed) : False := by
  obtain ⟨p, p0, p1, p2⟩ := (h.mem e).1 h1
  obtain ⟨q, q0, q1, q2⟩ := h.freed_pos h2
  have := h.size_le
  have := h.inj ⟨p0, by omega⟩ ⟨by omega, q1⟩ (p2.trans q2.symm)
  omega

theorem tree_rng (h : Inv s a) {p : Int} (h0 : 0 ≤ p) (h1 : p < used a) :
    0 ≤ s.tree.get p ∧ s.tree.get p < used a := by
  by_cases hc : p < s.size
  · exact h.rng _ (.inl (h.live_at h0 hc))
  · exact h.rng _ (.inr (h.freed_at (by omega) h1))

theorem inv_live (h : Inv s a) {e : Int} (he : e ∈ a.live) :
    0 ≤ s.inverse.get e ∧ s.inverse.get e < s.size ∧ s.tree.get (s.inverse.get e) = e := by
  obtain ⟨p, p0, p1, p2⟩ := (h.mem e).1 he
  have := h.size_le
  have h2 := (h.good.at' p p0 (by omega)).2
  rw [p2] at h2
  rw [h2]
  exact ⟨p0, p1, p2⟩

theorem inv_freed (h : Inv s a) {e : Int} (he : e ∈ a.freed) : s.size ≤ s.inverse.get e := by
  obtain ⟨p, p0, p1, p2⟩ := h.freed_pos he
  have := h.sz
  have h2 := (h.good.at' p (by omega) p1).2
  rw [p2] at h2
  omega

end Inv

theorem new_inv {asc : Comparator K} {dk : K} {dv : V} {ic : Int} {s : Heap K V}
    (h : Heap.new asc dk dv ic = .ok s) : Inv s (empty asc dk dv ic) := by
  unfold Heap.new at h
  split at h
  · simp at h
  · rename_i hic
    simp at h; subst h
    constructor <;> simp [empty, used] <;> try omega
    constructor <;> simp <;> omega

theorem new_ordered {asc : Comparator K} {dk : K} {dv : V} {ic : Int} {s : Heap K V} {P : K → Prop}
    (h : Heap.new asc dk dv ic = .ok s) (hP : TotalOn P asc.compare) :
    Ordered P s (empty asc dk dv ic) := by
  unfold Heap.new at h
  split at h
  · simp at h
  · simp at h; subst h
    refine ⟨hP, by simp [empty], fun p h0 h1 => ?_⟩
    simp at h1; omega

/-! Growth -/

theorem calc_stuck (s : Heap K V) (a : Abs K V) (h : Inv s a) (hst : a.Stuck) :
    Heap.calculateNewCapacity s = .err .resize s := by
  have h0 : 0 ≤ a.cap := by rw [h.cap]; omega
  unfold Heap.calculateNewCapacity
  rw [JM.bind_ok (JM.get_apply _)]
  have hMAX : MAX_CAPACITY = 2 ^ 29 := by decide
  simp only [hMAX, ← h.cap]
  by_cases h1 : a.cap = 2 ^ 29
  · rw [if_pos h1]; rfl
  · rw [if_neg h1]
    have : shl32 a.cap 1 ≤ a.cap := by
      rcases hst with h2 | h2 | h2
      · rw [h2]; decide
      · exact absurd h2 h1
      · rw [shl32_one']
        have := i32_range (2 * a.cap)
        unfold i32 at *
        omega
    rw [if_pos this]; rfl

theorem calc_ok (s : Heap K V) (a : Abs K V) (h : Inv s a) (hst : ¬ a.Stuck) :
    Heap.calculateNewCapacity s = .ok (min (2 * a.cap) (2 ^ 29)) s := by
  have h0 : 0 ≤ a.cap := by rw [h.cap]; omega
  unfold Heap.calculateNewCapacity
  rw [JM.bind_ok (JM.get_apply _)]
  have hMAX : MAX_CAPACITY = 2 ^ 29 := by decide
  simp only [hMAX, ← h.cap]
  have h1 : a.cap ≠ 2 ^ 29 := fun h => hst (.inr (.inl h))
  have h2 : a.cap ≠ 0 := fun h => hst (.inl h)
  have h3 : a.cap < 2 ^ 30 := by
    have : ¬ 2 ^ 30 ≤ a.cap := fun h => hst (.inr (.inr h))
    omega
  rw [if_neg h1, shl32_one (by omega), if_neg (by omega)]; rfl

theorem copyOf_get_lt {β : Type} (x : Arr β) (n : Int) (d : β) {j : Int} (h : j < x.len) :
    (x.copyOf n d).get j = x.get j := by rw [Arr.get_copyOf, if_pos h]

theorem copyOf_get_ge {β : Type} (x : Arr β) (n : Int) (d : β) {j : Int} (h : (x.len : Int) ≤ j) :
    (x.copyOf n d).get j = d := by rw [Arr.get_copyOf, if_neg (by omega)]

/-- The state after `growHeap`, `growKeys`, `growValues`. -/
def grown (s : Heap K V) (n : Int) : Heap K V := { s with
  tree := s.tree.copyOf n 0
  inverse := s.inverse.copyOf n 0
  keys := s.keys.copyOf n s.defaultKey
  values := s.values.copyOf n s.defaultValue }

theorem grow_spec (s : Heap K V) {n : Int} (hn : 0 ≤ n) :
    (do growHeap n; growKeys n; growValues n : JM (Heap K V) Unit) s = .ok () (grown s n) := by
  unfold growHeap growKeys growValues copyOf
  have hn' : (0 ≤ n) = True := by simp [hn]
  simp only [JM.bind_apply, JM.get_apply, JM.modify_apply, hn', if_true]
  rfl

/-- Growing keeps the invariant for the ideal heap with a larger capacity. -/
theorem grown_inv {s : Heap K V} {a : Abs K V} (h : Inv s a) {n : Int} (hn : (s.tree.len : Int) ≤ n) :
    Inv (grown s n) { a with cap := n } := by
  have hil := h.good.il
  have hkl := h.good.kl
  have hvl := h.vl
  have hsz := h.sz
  have hul := h.used_le
  have hsl := h.size_le
  have hn' : ((n.toNat : Nat) : Int) = n := by omega
  exact {
    vl := rfl
    cap := by show n = ((n.toNat : Nat) : Int); omega
    sz := h.sz
    fc := h.fc
    nd := h.nd
    mem := fun e => by
      rw [h.mem e]
      constructor
      · rintro ⟨p, p0, p1, p2⟩
        exact ⟨p, p0, p1, (copyOf_get_lt _ _ _ (by omega)).trans p2⟩
      · rintro ⟨p, p0, p1, p2⟩
        have hp1 : p < s.size := p1
        exact ⟨p, p0, p1, (copyOf_get_lt s.tree n 0 (by omega)).symm.trans p2⟩
    fr := fun i hi => by
      have hi' : i < a.freed.length := hi
      rw [h.fr i hi]
      show _ = some ((s.tree.copyOf n 0).get (s.size + i))
      rw [copyOf_get_lt _ _ _ (by unfold used at hul; omega)]
    good := by
      refine ⟨rfl, rfl, by show used a ≤ ((n.toNat : Nat) : Int); omega, fun p h0 h1 => ?_⟩
      have h1' : p < used a := h1
      obtain ⟨g1, g2⟩ := h.good.at' p h0 h1'
      show (0 ≤ (s.tree.copyOf n 0).get p ∧ (s.tree.copyOf n 0).get p < ((n.toNat : Nat) : Int)) ∧
        (s.inverse.copyOf n 0).get ((s.tree.copyOf n 0).get p) = p
      rw [copyOf_get_lt s.tree _ _ (by omega), copyOf_get_lt _ _ _ (by omega)]
      exact ⟨by omega, g2⟩
    rng := h.rng
    all := h.all
    unused := fun e h0 h1 => by
      show (s.inverse.copyOf n 0).get e = 0
      by_cases hc : e < (s.inverse.len : Int)
      · rw [copyOf_get_lt _ _ _ hc]; exact h.unused e h0 (by omega)
      · rw [copyOf_get_ge _ _ _ (by omega)]
    big := h.big
    keys := fun e h0 h1 => by
      show (s.keys.copyOf n _).get e = a.keyOf e
      by_cases hc : e < (s.keys.len : Int)
      · rw [copyOf_get_lt _ _ _ hc]; exact h.keys e h0 (by omega)
      · rw [copyOf_get_ge _ _ _ (by omega), h.keysB e (by omega), h.dk]
    vals := fun e h0 h1 => by
      show (s.values.copyOf n _).get e = a.valOf e
      by_cases hc : e < (s.values.len : Int)
      · rw [copyOf_get_lt _ _ _ hc]; exact h.vals e h0 (by omega)
      · rw [copyOf_get_ge _ _ _ (by omega), h.valsB e (by omega), h.dv]
    keysB := fun e h0 => h.keysB e (by
      have : ((n.toNat : Nat) : Int) ≤ e := h0
      omega)
    valsB := fun e h0 => h.valsB e (by
      have : ((n.toNat : Nat) : Int) ≤ e := h0
      omega)
    cmp := h.cmp
    dk := h.dk
    dv := h.dv }

theorem grown_ordered {P : K → Prop} {s : Heap K V} {a : Abs K V} (h : Inv s a) (ho : Ordered P s a)
    {n : Int} (hn : (s.tree.len : Int) ≤ n) : Ordered P (grown s n) { a with cap := n } := by
  have hkl := h.good.kl
  have hul := h.used_le
  have hsl := h.size_le
  refine ⟨ho.tot, ho.keys, fun p h0 h1 => ?_⟩
  have h1' : p < s.size := h1
  have hq : 0 ≤ par p ∧ par p < p := by simp only [par]; omega
  obtain ⟨g1, _⟩ := h.good.at' p (by omega) (by omega)
  obtain ⟨g2, _⟩ := h.good.at' (par p) hq.1 (by omega)
  show s.comp.compare ((s.keys.copyOf n _).get ((s.tree.copyOf n 0).get (par p)))
    ((s.keys.copyOf n _).get ((s.tree.copyOf n 0).get p)) ≤ 0
  rw [copyOf_get_lt s.tree _ _ (by omega), copyOf_get_lt s.tree _ _ (by omega),
    copyOf_get_lt _ _ _ (by omega), copyOf_get_lt _ _ _ (by omega)]
  exact ho.ord p h0 h1'

/-! Insertion -/

/-- The state in which a new entry `t` is about to be placed. -/
def placed (s : Heap K V) (t : Int) (k : K) (fc : Int) : Heap K V := { s with
  keys := s.keys.set t k
  freeCount := fc
  modCount := i32 (s.modCount + 1)
  size := s.size + 1 }

theorem place_free {s : Heap K V} {a : Abs K V} (h : Inv s a) (k : K) {e : Int} {fs : List Int}
    (hf : a.freed = e :: fs) : allocateEntry k s = .ok e (placed s e k (s.freeCount - 1)) := by
  have hfc := h.fc
  rw [hf] at hfc
  simp only [List.length_cons] at hfc
  have hsz := h.sz
  have hul := h.used_le
  have hu : used a = a.live.length + (fs.length + 1) := by unfold used; rw [hf]; simp
  have h0 := h.fr 0 (by rw [hf]; simp)
  rw [hf] at h0
  simp only [List.getElem?_cons_zero, Option.some.injEq, Int.natCast_zero, Int.add_zero] at h0
  have her := h.rng e (.inr (by rw [hf]; simp))
  have hkl := h.good.kl
  unfold allocateEntry
  rw [JM.bind_ok (JM.get_apply _)]
  rw [if_pos (by omega)]
  rw [JM.bind_ok (rd_ok _ (by omega)), JM.bind_ok (JM.modify_apply _ _), JM.bind_ok (JM.pure_apply _ _), ← h0]
  rw [JM.bind_ok (wr_ok _ _ (by show 0 ≤ e ∧ e < (s.keys.len : Int); omega))]
  rfl

theorem place_new {s : Heap K V} {a : Abs K V} (h : Inv s a) (k : K) (hf : a.freed = [])
    (hr : s.size < s.tree.len) : allocateEntry k s = .ok s.size (placed s s.size k s.freeCount) := by
  have hfc := h.fc
  rw [hf] at hfc
  simp only [List.length_nil] at hfc
  have hsz := h.sz
  have hkl := h.good.kl
  unfold allocateEntry
  rw [JM.bind_ok (JM.get_apply _)]
  rw [if_neg (by omega)]
  rw [JM.when_neg (by omega)]
  rw [JM.bind_ok (JM.pure_apply _ _), JM.bind_ok (JM.pure_apply _ _)]
  rw [JM.bind_ok (wr_ok _ _ (by omega))]
  rfl

theorem place_grow {s : Heap K V} {a : Abs K V} (h : Inv s a) (k : K) (hf : a.freed = [])
    (hr : (s.tree.len : Int) ≤ s.size) {n : Int} (hn : s.size < n)
    (hc : Heap.calculateNewCapacity s = .ok n s) :
    allocateEntry k s = allocateEntry k (grown s n) := by
  have hfc := h.fc
  rw [hf] at hfc
  simp only [List.length_nil] at hfc
  have hsz := h.sz
  have hkl := h.good.kl
  rw [place_new (grown_inv h (n := n) (by omega)) k hf
    (by show s.size < ((n.toNat : Nat) : Int); omega)]
  unfold allocateEntry
  rw [JM.bind_ok (JM.get_apply _)]
  rw [if_neg (by omega)]
  rw [JM.when_pos (by omega)]
  have hg : (do
      let newCapacity ← Heap.calculateNewCapacity
      growHeap newCapacity
      growKeys newCapacity
      growValues newCapacity : JM (Heap K V) Unit) s = .ok () (grown s n) := by
    rw [JM.bind_ok hc]; exact grow_spec s (by omega)
  rw [JM.bind_ok hg, JM.bind_ok (JM.pure_apply _ _)]
  rw [JM.bind_ok (wr_ok _ _ (by
    show 0 ≤ s.size ∧ s.size < (((grown s n).keys.len : Nat) : Int)
    show 0 ≤ s.size ∧ s.size < ((n.toNat : Nat) : Int); omega))]
  rfl

theorem place_stuck {s : Heap K V} {a : Abs K V} (h : Inv s a) (k : K) (hf : a.Full) (hst : a.Stuck) :
    allocateEntry k s = .err .resize s := by
  have hfc := h.fc
  rw [hf.1] at hfc
  simp only [List.length_nil] at hfc
  have hsz := h.sz
  have hcap := h.cap
  have hkl := h.good.kl
  have hff := hf.2
  have hcalc := calc_stuck s a h hst
  unfold allocateEntry
  rw [JM.bind_ok (JM.get_apply _)]
  rw [if_neg (by omega), JM.when_pos (by omega)]
  refine JM.bind_err (JM.bind_err ?_)
  exact hcalc

/-- Placing the new entry in the tree. -/
theorem place_spec {s : Heap K V} {a : Abs K V} (h : Inv s a) (k : K) {t : Int} (hsz1 : s.size < s.tree.len)
    (ht : t = a.entry) (hfull : ¬ a.Full) (hroom : a.live.length < 2 ^ 30) {fc : Int}
    (hfc : fc = a.freed.tail.length) :
    ∃ s', filterUp s.size k t (placed s t k fc) =
        .ok (up (ce (placed s t k fc)) s.size.toNat (upd s.tree.get s.size t) s.size).2 s' ∧
      Inv s' (a.insert k) ∧ s'.values = s.values ∧
      ∀ P, Ordered P s a → P k → Ordered P s' (a.insert k) := by
  have hil := h.good.il
  have hkl := h.good.kl
  have hsz := h.sz
  have hul := h.used_le
  have hsl := h.size_le
  have hcap := h.cap
  -- the number of entries after the insertion
  have hu' : used (a.insert k) = max (used a) (s.size + 1) := by
    show ((a.entry :: a.live).length : Int) + (a.freed.tail.length : Int) = _
    simp only [List.length_cons, List.length_tail]
    by_cases hfl : a.freed = []
    · simp only [used, hfl, List.length_nil]; omega
    · have : 0 < a.freed.length := List.length_pos_iff.mpr hfl
      simp only [used]; omega
  have hnewCap : (a.insert k).cap = a.cap := by
    show a.newCap = a.cap
    unfold Abs.newCap; rw [if_neg hfull]
  -- t is the entry at position size, or the first unused entry
  have htc : (∃ fs, a.freed = t :: fs ∧ s.tree.get s.size = t) ∨
      (a.freed = [] ∧ t = s.size ∧ used a = s.size) := by
    cases hfl : a.freed with
    | nil => right; refine ⟨rfl, ?_, ?_⟩
             · rw [ht]; unfold Abs.entry; rw [hfl]; simp [hsz]
             · unfold used; rw [hfl]; simp [hsz]
    | cons e fs =>
      left
      have : t = e := by rw [ht]; unfold Abs.entry; rw [hfl]; rfl
      refine ⟨fs, by rw [this], ?_⟩
      have h0 := h.fr 0 (by rw [hfl]; simp)
      rw [hfl] at h0
      simp only [List.getElem?_cons_zero, Option.some.injEq, Int.natCast_zero, Int.add_zero] at h0
      rw [this, h0]
  have htr : 0 ≤ t ∧ t < used (a.insert k) := by
    rw [hu']
    rcases htc with ⟨fs, h1, h2⟩ | ⟨h1, h2, h3⟩
    · have := h.rng t (.inr (by rw [h1]; simp)); omega
    · omega
  have htn : t ∉ a.live := by
    intro hm
    rcases htc with ⟨fs, h1, h2⟩ | ⟨h1, h2, h3⟩
    · exact h.disj hm (by rw [h1]; simp)
    · have := h.rng t (.inl hm); omega
  have hpos : Pos (placed s t k fc) (used (a.insert k)) s.size t := by
    refine ⟨hil, hkl, by rw [hu']; show _ ≤ (s.tree.len : Int); omega, ?_, fun p h0 h1 hne => ?_⟩
    · show 0 ≤ t ∧ t < (s.tree.len : Int); omega
    · show (0 ≤ s.tree.get p ∧ s.tree.get p < (s.tree.len : Int)) ∧ s.inverse.get (s.tree.get p) = p ∧
        s.tree.get p ≠ t
      have hpu : p < used a := by rw [hu'] at h1; omega
      obtain ⟨g1, g2⟩ := h.good.at' p h0 hpu
      refine ⟨g1, g2, fun he => ?_⟩
      rcases htc with ⟨fs, k1, k2⟩ | ⟨k1, k2, k3⟩
      · have : 0 < a.freed.length := by rw [k1]; simp
        have hus : s.size < used a := by unfold used; omega
        exact hne (h.inj ⟨h0, hpu⟩ ⟨by omega, hus⟩ (he.trans k2.symm))
      · have := h.tree_rng h0 hpu; omega
  have hkt : (placed s t k fc).keys.get t = k := Arr.get_set_self _ _ _
  obtain ⟨s', e1, e2, e3, e4⟩ := filterUp_spec (placed s t k fc) hpos (by omega) (by rw [hu']; omega)
  rw [hkt] at e1
  have htree : (placed s t k fc).tree = s.tree := rfl
  rw [htree] at e1 e2 e4
  obtain ⟨⟨A, I, hs'⟩, tl, il, frm⟩ := e2
  have tl' : s'.tree.len = s.tree.len := tl
  obtain ⟨⟨b1, b2⟩, b3, b4, b5⟩ :=
    up_basic (ce (placed s t k fc)) s.size.toNat (upd s.tree.get s.size t) s.size (by omega)
  have hT : ∀ p, p ≠ s.size → upd s.tree.get s.size t p = s.tree.get p := by
    intro p hp; unfold upd; rw [if_neg hp]
  have hTs : upd s.tree.get s.size t s.size = t := by unfold upd; rw [if_pos rfl]
  have himg := b5 (s.size + 1) (by omega)
  rw [← e4] at himg b4
  have hs1 : s'.size = s.size + 1 := by rw [hs']; rfl
  have hmem' : ∀ e, e ∈ a.entry :: a.live ↔ ∃ p, 0 ≤ p ∧ p < s'.size ∧ s'.tree.get p = e := by
    intro e
    rw [hs1, himg e, ← ht, List.mem_cons, h.mem e]
    constructor
    · rintro (rfl | ⟨p, p0, p1, p2⟩)
      · exact ⟨s.size, by omega, by omega, hTs⟩
      · exact ⟨p, p0, by omega, by rw [hT p (by omega)]; exact p2⟩
    · rintro ⟨p, p0, p1, p2⟩
      by_cases hp : p = s.size
      · left; rw [← p2, hp, hTs]
      · right; exact ⟨p, p0, by omega, by rw [← hT p hp]; exact p2⟩
  have hkeys' : s'.keys = s.keys.set t k := by rw [hs']; rfl
  have hvals' : s'.values = s.values := by rw [hs']; rfl
  refine ⟨s', e1, ?_, hvals', ?_⟩
  · exact {
      vl := by rw [hvals', tl']; exact h.vl
      cap := by rw [hnewCap, tl']; exact hcap
      sz := by rw [hs1, hsz]; show _ = ((a.entry :: a.live).length : Int); simp
      fc := by rw [hs']; exact hfc
      nd := by
        show (a.entry :: a.live).Nodup
        rw [← ht]
        exact List.nodup_cons.mpr ⟨htn, h.nd⟩
      mem := hmem'
      fr := fun i hi => by
        have hi' : i < a.freed.tail.length := hi
        rw [List.length_tail] at hi'
        show a.freed.tail[i]? = _
        rw [List.getElem?_tail, h.fr (i + 1) (by omega), b4 _ (by rw [hs1]; omega), hs1,
          hT _ (by omega)]
        congr 2; omega
      good := e3
      rng := fun e he => by
        rcases he with he | he
        · have he' : e ∈ a.entry :: a.live := he
          rw [List.mem_cons, ← ht] at he'
          rcases he' with rfl | he'
          · exact htr
          · have := h.rng e (.inl he'); rw [hu']; omega
        · have he' : e ∈ a.freed.tail := he
          have := h.rng e (.inr (List.mem_of_mem_tail he')); rw [hu']; omega
      all := fun e h0 h1 => by
        show e ∈ a.entry :: a.live ∨ e ∈ a.freed.tail
        rw [← ht, List.mem_cons]
        rw [hu'] at h1
        by_cases hx : e < used a
        · rcases h.all e h0 hx with he | he
          · exact .inl (.inr he)
          · rcases htc with ⟨fs, k1, k2⟩ | ⟨k1, k2, k3⟩
            · rw [k1, List.mem_cons] at he
              rcases he with rfl | he
              · exact .inl (.inl rfl)
              · right; rw [k1]; exact he
            · rw [k1] at he; simp at he
        · rcases htc with ⟨fs, k1, k2⟩ | ⟨k1, k2, k3⟩
          · have : 0 < a.freed.length := by rw [k1]; simp
            unfold used at hx h1; omega
          · left; left; omega
      unused := fun e h0 h1 => by
        rw [tl'] at h1
        rw [frm e ?_]
        · rw [hu'] at h0
          exact h.unused e (by omega) h1
        · intro p p0 p1 hp
          by_cases hps : p = s.size
          · rw [hps, hTs] at hp; omega
          · rw [hT p hps] at hp
            have : p < used a := by rw [hu'] at p1; omega
            have := h.tree_rng p0 this
            rw [hu'] at h0; omega
      big := by
        rw [hu']
        have := h.big
        omega
      keys := fun e h0 h1 => by
        rw [tl'] at h1
        rw [hkeys']
        show (s.keys.set t k).get e = upd a.keyOf a.entry k e
        rw [← ht]
        unfold upd
        split
        · rename_i hx; rw [hx, Arr.get_set_self]
        · rename_i hx; rw [Arr.get_set_ne _ _ hx]; exact h.keys e h0 h1
      vals := fun e h0 h1 => by rw [hvals']; exact h.vals e h0 (by omega)
      keysB := fun e h0 => by
        rw [tl'] at h0
        show upd a.keyOf a.entry k e = _
        unfold upd
        rw [← ht, if_neg (by omega)]
        exact h.keysB e h0
      valsB := fun e h0 => h.valsB e (by omega)
      cmp := by rw [hs']; exact h.cmp
      dk := by rw [hs']; exact h.dk
      dv := by rw [hs']; exact h.dv }
  · intro P ho hPk
    have hcomp : s'.comp = s.comp := by rw [hs']; rfl
    refine ⟨by rw [hcomp]; exact ho.tot, ?_, ?_⟩
    · intro e he
      have he' : e ∈ a.entry :: a.live := he
      show P (upd a.keyOf a.entry k e)
      unfold upd
      split
      · exact hPk
      · rename_i hx
        rcases List.mem_cons.mp he' with h1 | h1
        · exact absurd h1 hx
        · exact ho.keys e h1
    · have hce : ce s' = ce (placed s t k fc) := by rw [hs']
      rw [hce, hs1, e4]
      -- keys of the entries in the tree
      have hkey : ∀ p, 0 ≤ p → p < s.size →
          (placed s t k fc).keys.get (s.tree.get p) = s.keys.get (s.tree.get p) := by
        intro p h0 h1
        refine Arr.get_set_ne _ _ fun he => htn ?_
        rw [← he]; exact h.live_at h0 h1
      refine up_ord (P := fun e => P ((placed s t k fc).keys.get e)) (pre_of ho.tot) _ _ _ (by omega)
        (by omega) (by omega) ?_ ⟨?_, ?_⟩
      · intro p h0 h1
        show P ((placed s t k fc).keys.get (upd s.tree.get s.size t p))
        by_cases hps : p = s.size
        · rw [hps, hTs, hkt]; exact hPk
        · rw [hT p hps, hkey p h0 (by omega)]
          have hl := h.live_at h0 (by omega : p < s.size)
          rw [h.keys _ (by have := h.tree_rng h0 (by omega : p < used a); omega)
            (by have := h.tree_rng h0 (by omega : p < used a); omega)]
          exact ho.keys _ hl
      · intro p h0 h1 hne
        have hq : 0 ≤ par p ∧ par p < p := by simp only [par]; omega
        rw [hT p hne, hT (par p) (by omega)]
        show s.comp.compare ((placed s t k fc).keys.get _) ((placed s t k fc).keys.get _) ≤ 0
        rw [hkey p (by omega) (by omega), hkey (par p) hq.1 (by omega)]
        exact ho.ord p h0 (by omega)
      · intro p h0 h1 he hc
        simp only [par] at he; omega

end Verif.HeapProof
