import Verif.Spec.HeapEff
import Verif.Proofs.HeapCost
set_option linter.unusedSectionVars false
/-! With keys it can compare, a comparator that may fail or have effects does not change what the heap does. -/
namespace Verif.HeapErase
open Verif.HeapSpec Verif.HeapProof Verif.Heap Verif.HeapCost
variable {σ K V α β : Type}

/-- The result `r` on the heap, with `u` outside. -/
def lifts (r : Res (Heap K V) α) (u : σ) : Res (Obs σ K V) α :=
  match r with
  | .ok a s => .ok a ⟨s, u⟩
  | .err e s => .err e ⟨s, u⟩

/-- `m'` does to the heap what `m` does. -/
def Same (m' : JM (Obs σ K V) α) (m : JM (Heap K V) α) (s : Heap K V) : Prop :=
  ∀ u, ∃ u', m' ⟨s, u⟩ = lifts (m s) u'

namespace Same
variable {m' : JM (Obs σ K V) α} {m : JM (Heap K V) α} {s : Heap K V}

theorem free (m : JM (Heap K V) α) (s : Heap K V) : Same (σ := σ) (HeapEff.lift m) m s := by
  intro u
  refine ⟨u, ?_⟩
  show (match m s with
    | .ok a h => Res.ok a (⟨h, u⟩ : Obs σ K V)
    | .err e h => .err e ⟨h, u⟩) = _
  unfold lifts
  cases m s <;> rfl

theorem pure (a : α) (s : Heap K V) : Same (σ := σ) (Pure.pure a) (Pure.pure a) s := fun u => ⟨u, rfl⟩

theorem throw (e : Err) (s : Heap K V) : Same (σ := σ) (JM.throw e : JM _ α) (JM.throw e) s := fun u => ⟨u, rfl⟩

theorem bind {f' : α → JM (Obs σ K V) β} {f : α → JM (Heap K V) β} (h : Same m' m s)
    (hf : ∀ x t, m s = .ok x t → Same (f' x) (f x) t) : Same (m' >>= f') (m >>= f) s := by
  intro u
  obtain ⟨u', e⟩ := h u
  cases hm : m s with
  | ok x t =>
    obtain ⟨v, e'⟩ := hf x t hm u'
    refine ⟨v, ?_⟩
    rw [hm] at e
    rw [JM.bind_ok e, e', JM.bind_ok hm]
  | err x t =>
    refine ⟨u', ?_⟩
    rw [hm] at e
    rw [JM.bind_err e, JM.bind_err hm]; rfl

theorem step {f' : α → JM (Obs σ K V) β} {f : α → JM (Heap K V) β}
    (hf : ∀ x t, m s = .ok x t → Same (f' x) (f x) t) : Same (HeapEff.lift m >>= f') (m >>= f) s :=
  bind (free m s) hf

theorem getc {f' : Heap K V → JM (Obs σ K V) β} {f : Heap K V → JM (Heap K V) β}
    (hf : Same (f' s) (f s) s) : Same (HeapEff.lift get >>= f') (get >>= f) s := by
  refine step fun x t hx => ?_
  simp only [JM.get_apply, Res.ok.injEq] at hx
  obtain ⟨rfl, rfl⟩ := hx
  exact hf

theorem cmp {eff : HeapEff.Effect σ K} {C : Comparator K → Prop} {P : K → Prop} (hE : Comparable eff C P)
    {f' : Int → JM (Obs σ K V) β} {m : JM (Heap K V) β} {x y : K} (hc : C s.comp) (hx : P x) (hy : P y)
    (hf : Same (f' (s.comp.compare x y)) m s) : Same (HeapEff.cmpE eff x y >>= f') m s := by
  intro u
  obtain ⟨u1, h1⟩ := hE s.comp x y u hc hx hy
  obtain ⟨u2, h2⟩ := hf u1
  refine ⟨u2, ?_⟩
  have : HeapEff.cmpE eff x y (⟨s, u⟩ : Obs σ K V) = .ok (s.comp.compare x y) ⟨s, u1⟩ := by
    show (match eff s.comp x y u with
      | .ok a e => Res.ok a (⟨s, e⟩ : Obs σ K V)
      | .err x e => .err x ⟨s, e⟩) = _
    rw [h1]
  rw [JM.bind_ok this, h2]

theorem cmpGet {eff : HeapEff.Effect σ K} {C : Comparator K → Prop} {P : K → Prop} (hE : Comparable eff C P)
    {f' : Int → JM (Obs σ K V) β} {f : Heap K V → JM (Heap K V) β} {x y : K} (hc : C s.comp) (hx : P x) (hy : P y)
    (hf : Same (f' (s.comp.compare x y)) (f s) s) : Same (HeapEff.cmpE eff x y >>= f') (get >>= f) s :=
  cmp (m := get >>= f) hE hc hx hy fun u => by
    obtain ⟨u', e⟩ := hf u
    exact ⟨u', by rw [JM.bind_ok (JM.get_apply _)]; exact e⟩

end Same

/-- The keys of the entries at the first `m` positions except `c` satisfy `P`. -/
def But (P : K → Prop) (s : Heap K V) (m c : Int) : Prop :=
  ∀ p, 0 ≤ p → p < m → p ≠ c → P (s.keys.get (s.tree.get p))

/-- `s'` has the keys, size and comparator of `s`. -/
def Kept (s s' : Heap K V) : Prop := s'.keys = s.keys ∧ s'.size = s.size ∧ s'.comp = s.comp

theorem Kept.trans {s t u : Heap K V} (h : Kept s t) (h' : Kept t u) : Kept s u :=
  ⟨h'.1.trans h.1, h'.2.1.trans h.2.1, h'.2.2.trans h.2.2⟩

variable {eff : HeapEff.Effect σ K} {C : Comparator K → Prop} {P : K → Prop}

/-- One move of the loops: the hole goes from `c` to `q`. -/
theorem But.move {s : Heap K V} {m c q : Int} (h : But P s m c) (hq : 0 ≤ q) (hqm : q < m) (hne : q ≠ c)
    {s4 s5 s6 s7 : Heap K V} {x ce : Int} {u v : Unit} (h4 : rd Heap.tree q s = .ok x s4)
    (h5 : wrTree c x s4 = .ok u s5) (h6 : rd Heap.tree c s5 = .ok ce s6) (h7 : wrInverse ce c s6 = .ok v s7) :
    But P s7 m q ∧ Kept s s7 := by
  obtain ⟨e4, e4'⟩ := rd_inv h4
  have e5 := wr_inv h5
  have e6 := (rd_inv h6).1
  have e7 := wr_inv h7
  subst s4 s6 x
  rw [e7, e5]
  refine ⟨fun p h0 h1 h2 => ?_, rfl, rfl, rfl⟩
  show P (s.keys.get ((s.tree.set c _).get p))
  rw [Arr.get_set]
  split
  · exact h q hq hqm hne
  · rename_i hpc; exact h p h0 h1 hpc

theorem up_same (hE : Comparable eff C P) {key : K} (hk : P key) {m : Int} (f : Nat) : ∀ (c : Int) (s : Heap K V),
    0 ≤ c → c < m → C s.comp → But P s m c →
    Same (HeapEff.filterUpLoop eff key f c) (Heap.filterUpLoop key f c) s ∧
      ∀ r s', Heap.filterUpLoop key f c s = .ok r s' → 0 ≤ r ∧ r ≤ c ∧ But P s' m r ∧ Kept s s' := by
  induction f with
  | zero =>
    intro c s h0 hm hc hb
    unfold HeapEff.filterUpLoop Heap.filterUpLoop
    split
    · refine ⟨.pure _ _, fun r s' h => ?_⟩
      simp only [JM.pure_apply, Res.ok.injEq] at h
      rw [← h.1, ← h.2]; exact ⟨h0, Int.le_refl _, hb, rfl, rfl, rfl⟩
    · exact ⟨.throw _ _, fun r s' h => by simp at h⟩
  | succ f ih =>
    intro c s h0 hm hc hb
    unfold HeapEff.filterUpLoop Heap.filterUpLoop
    split
    · refine ⟨.pure _ _, fun r s' h => ?_⟩
      simp only [JM.pure_apply, Res.ok.injEq] at h
      rw [← h.1, ← h.2]; exact ⟨h0, Int.le_refl _, hb, rfl, rfl, rfl⟩
    · have hpar : 0 ≤ (c - 1) / 2 ∧ (c - 1) / 2 < c := by omega
      constructor
      · refine .step fun pe s1 h1 => .step fun pk s2 h2 => ?_
        obtain ⟨e1, e1'⟩ := rd_inv h1
        obtain ⟨e2, e2'⟩ := rd_inv h2
        subst s1 s2
        refine .cmpGet hE hc hk ?_ ?_
        · rw [e2', e1']; exact hb _ hpar.1 (by omega) (by omega)
        split
        · exact .pure _ _
        · refine .step fun pe' s4 h4 => .step fun _ s5 h5 => .step fun ce s6 h6 => .step fun _ s7 h7 => ?_
          obtain ⟨g1, g2⟩ := hb.move hpar.1 (by omega) (by omega) h4 h5 h6 h7
          exact (ih _ s7 hpar.1 (by omega) (by rw [g2.2.2]; exact hc) g1).1
      · intro r s' h
        simp only at h
        obtain ⟨_, s1, h1, h⟩ := bind_inv h
        obtain ⟨_, s2, h2, h⟩ := bind_inv h
        obtain ⟨_, s3, h3, h⟩ := bind_inv h
        simp only [JM.get_apply, Res.ok.injEq] at h3
        obtain ⟨rfl, rfl⟩ := h3
        have e1 := (rd_inv h1).1
        have e2 := (rd_inv h2).1
        subst s1 s2
        split at h
        · simp only [JM.pure_apply, Res.ok.injEq] at h
          rw [← h.1, ← h.2]; exact ⟨h0, Int.le_refl _, hb, rfl, rfl, rfl⟩
        · obtain ⟨_, s4, h4, h⟩ := bind_inv h
          obtain ⟨_, s5, h5, h⟩ := bind_inv h
          obtain ⟨_, s6, h6, h⟩ := bind_inv h
          obtain ⟨_, s7, h7, h⟩ := bind_inv h
          obtain ⟨g1, g2⟩ := hb.move hpar.1 (by omega) (by omega) h4 h5 h6 h7
          obtain ⟨i1, i2, i3, i4⟩ := (ih _ s7 hpar.1 (by omega) (by rw [g2.2.2]; exact hc) g1).2 r s' h
          exact ⟨i1, by omega, i3, g2.trans i4⟩

theorem filterUp_same (hE : Comparable eff C P) {key : K} (hk : P key) {m c : Int} {s : Heap K V} (e : Int)
    (h0 : 0 ≤ c) (hm : c < m) (hc : C s.comp) (hb : But P s m c) :
    Same (HeapEff.filterUp eff c key e) (Heap.filterUp c key e) s ∧
      ∀ r s', Heap.filterUp c key e s = .ok r s' → 0 ≤ r ∧ r ≤ c ∧ But P s' m r ∧ Kept s s' ∧ s'.tree.get r = e := by
  obtain ⟨u1, u2⟩ := up_same hE hk c.toNat c s h0 hm hc hb
  unfold HeapEff.filterUp Heap.filterUp
  refine ⟨.bind u1 fun _ _ _ => .step fun _ _ _ => .step fun _ _ _ => .pure _ _, fun r s' h => ?_⟩
  obtain ⟨r', s1, h1, h⟩ := bind_inv h
  obtain ⟨_, s2, h2, h⟩ := bind_inv h
  obtain ⟨_, s3, h3, h⟩ := bind_inv h
  have e2 := wr_inv h2
  have e3 := wr_inv h3
  simp only [JM.pure_apply, Res.ok.injEq] at h
  obtain ⟨rfl, rfl⟩ := h
  obtain ⟨v1, v2, v3, v4⟩ := u2 _ _ h1
  rw [e3, e2]
  refine ⟨v1, v2, fun p p0 p1 p2 => ?_, v4, Arr.get_set_self _ _ _⟩
  show P (s1.keys.get ((s1.tree.set _ _).get p))
  rw [Arr.get_set_ne _ _ p2]
  exact v3 p p0 p1 p2

theorem down_same (hE : Comparable eff C P) {key : K} (hk : P key) (f : Nat) : ∀ (c : Int) (s : Heap K V),
    0 ≤ c → c < 1073741824 → s.size ≤ 1073741824 → C s.comp → But P s s.size c →
    Same (HeapEff.filterDownLoop eff key f c) (Heap.filterDownLoop key f c) s := by
  induction f with
  | zero =>
    intro c s _ _ _ _ _
    unfold HeapEff.filterDownLoop Heap.filterDownLoop
    exact .throw _ _
  | succ f ih =>
    intro c s h0 hcm hs hc hb
    unfold HeapEff.filterDownLoop Heap.filterDownLoop
    refine .getc ?_
    simp only
    split
    · rename_i hlt
      have hidx : i32 (shl32 c 1 + 1) = 2 * c + 1 := by
        have := downPos (p := c.toNat) hs (by rwa [Int.toNat_of_nonneg h0]) (by omega)
        rwa [Int.toNat_of_nonneg h0] at this
      rw [hidx] at hlt ⊢
      refine .step fun le s1 h1 => .step fun lk s2 h2 => ?_
      obtain ⟨e1, e1'⟩ := rd_inv h1
      obtain ⟨e2, e2'⟩ := rd_inv h2
      subst s1 s2
      have hlk : P lk := by rw [e2', e1']; exact hb _ (by omega) (by omega) (by omega)
      refine .bind ?_ ?_
      · split
        · refine .step fun re s3 h3 => .step fun rk s4 h4 => ?_
          obtain ⟨e3, e3'⟩ := rd_inv h3
          obtain ⟨e4, e4'⟩ := rd_inv h4
          subst s3 s4
          refine .cmp hE hc hlk ?_ ?_
          · rw [e4', e3']; exact hb _ (by omega) (by omega) (by omega)
          split <;> exact .pure _ _
        · exact .pure _ _
      · rintro ⟨ch, ck⟩ s3 h3
        have hch : s3 = s ∧ ck = s.keys.get (s.tree.get ch) ∧ (ch = 2 * c + 1 ∨ ch = 2 * c + 2) ∧ ch < s.size := by
          split at h3
          · rename_i hr
            obtain ⟨re, t, ha, h3⟩ := bind_inv h3
            obtain ⟨ea, ea'⟩ := rd_inv ha
            obtain ⟨rk, t', hb', h3⟩ := bind_inv h3
            obtain ⟨eb, eb'⟩ := rd_inv hb'
            subst t t'
            split at h3 <;> simp only [JM.pure_apply, Res.ok.injEq, Prod.mk.injEq] at h3
            · obtain ⟨⟨rfl, rfl⟩, rfl⟩ := h3
              exact ⟨rfl, by rw [eb', ea'], .inr (by omega), by omega⟩
            · obtain ⟨⟨rfl, rfl⟩, rfl⟩ := h3
              exact ⟨rfl, by rw [e2', e1'], .inl (by omega), by omega⟩
          · simp only [JM.pure_apply, Res.ok.injEq, Prod.mk.injEq] at h3
            obtain ⟨⟨rfl, rfl⟩, rfl⟩ := h3
            exact ⟨rfl, by rw [e2', e1'], .inl (by omega), by omega⟩
        obtain ⟨e3, hck, hch, hchs⟩ := hch
        subst s3
        refine .cmp hE hc hk ?_ ?_
        · rw [hck]; exact hb _ (by omega) (by omega) (by omega)
        split
        · exact .pure _ _
        · refine .step fun ce s4 h4 => .step fun _ s5 h5 => .step fun pe s6 h6 => .step fun _ s7 h7 => ?_
          obtain ⟨g1, g2⟩ := hb.move (by omega) hchs (by omega) h4 h5 h6 h7
          refine ih ch s7 (by omega) (by omega) (by rw [g2.2.1]; exact hs) (by rw [g2.2.2]; exact hc) ?_
          rw [g2.2.1]; exact g1
    · exact .pure _ _

theorem sift_same (hE : Comparable eff C P) {key : K} (hk : P key) {c : Int} {s : Heap K V} (e : Int)
    (h0 : 0 ≤ c) (hm : c < s.size) (hs : s.size ≤ 1073741824) (hc : C s.comp) (hb : But P s s.size c) :
    Same (do let at' ← HeapEff.filterUp eff c key e; HeapEff.filterDown eff at' key e)
      (do let at' ← Heap.filterUp c key e; Heap.filterDown at' key e) s := by
  obtain ⟨u1, u2⟩ := filterUp_same hE hk e h0 hm hc hb
  refine .bind u1 fun r s1 h1 => ?_
  obtain ⟨v1, v2, v3, v4, -⟩ := u2 r s1 h1
  unfold HeapEff.filterDown Heap.filterDown
  refine .getc (.bind ?_ fun _ _ _ => .step fun _ _ _ => .free _ _)
  exact down_same hE hk _ r s1 v1 (by omega) (by rw [v4.2.1]; exact hs) (by rw [v4.2.2]; exact hc)
    (by rw [v4.2.1]; exact v3)

theorem first_same (hE : Comparable eff C P) {key : K} (hk : P key) {s : Heap K V} (hc : C s.comp)
    (hb : But P s s.size (-1)) : ∀ (m : Nat) (i : Int), 0 ≤ i → i + m ≤ s.size →
    Same (HeapEff.firstLoop eff key m i) (Heap.firstLoop key m i) s
  | 0, _, _, _ => .pure _ _
  | m + 1, i, h0, hi => by
    unfold HeapEff.firstLoop Heap.firstLoop
    refine .step fun e s1 h1 => .step fun k s2 h2 => ?_
    obtain ⟨e1, e1'⟩ := rd_inv h1
    obtain ⟨e2, e2'⟩ := rd_inv h2
    subst s1 s2
    refine .cmpGet hE hc hk ?_ ?_
    · rw [e2', e1']; exact hb _ h0 (by omega) (by omega)
    split
    · exact .pure _ _
    · exact first_same hE hk hc hb m (i + 1) (by omega) (by omega)

theorem rebuild_same (hE : Comparable eff C P) : ∀ (m : Nat) (i : Int) (s : Heap K V), C s.comp →
    But P s s.size (-1) → 0 ≤ i → i + m = s.size →
    Same (HeapEff.rebuildLoop eff m i) (Heap.rebuildLoop m i) s
  | 0, _, _, _, _, _, _ => .pure _ _
  | m + 1, i, s, hc, hb, h0, hi => by
    unfold HeapEff.rebuildLoop Heap.rebuildLoop
    refine .step fun e s1 h1 => .step fun k s2 h2 => ?_
    obtain ⟨e1, e1'⟩ := rd_inv h1
    obtain ⟨e2, e2'⟩ := rd_inv h2
    subst s1 s2
    have hk : P k := by rw [e2', e1']; exact hb _ h0 (by omega) (by omega)
    obtain ⟨u1, u2⟩ := filterUp_same hE hk e h0 (m := s.size) (by omega) hc (fun p p0 p1 _ => hb p p0 p1 (by omega))
    refine .bind u1 fun r s3 h3 => ?_
    obtain ⟨v1, v2, v3, v4, v5⟩ := u2 r s3 h3
    refine rebuild_same hE m (i + 1) s3 (by rw [v4.2.2]; exact hc) ?_ (by omega) (by rw [v4.2.1]; omega)
    intro p p0 p1 _
    rw [v4.2.1] at p1
    by_cases hp : p = r
    · subst hp; rw [v5, v4.1, ← e2']; exact hk
    · exact v3 p p0 p1 hp

/-- The key of every live entry satisfies `P`. -/
def Keys (P : K → Prop) (a : Abs K V) : Prop := ∀ e ∈ a.live, P (a.keyOf e)

theorem but_of_inv {s : Heap K V} {a : Abs K V} (h : Inv s a) (hP : Keys P a) : But P s s.size (-1) := by
  intro p p0 p1 _
  have hm := h.live_at p0 p1
  have hr := h.rng _ (.inl hm)
  have := h.used_le
  rw [h.keys _ hr.1 (by omega)]
  exact hP _ hm

theorem but_placed {s : Heap K V} {a : Abs K V} (h : Inv s a) (hP : Keys P a) {k : K} (hk : P k) (t fc : Int) :
    But P (placed s t k fc) (s.size + 1) s.size := by
  intro p p0 p1 p2
  show P ((s.keys.set t k).get (s.tree.get p))
  rw [Arr.get_set]
  split
  · exact hk
  · exact but_of_inv h hP p p0 (by omega) (by omega)

theorem alloc_but {s : Heap K V} {a : Abs K V} (h : Inv s a) (hP : Keys P a) {k : K} (hk : P k)
    (hg : ¬ (a.Full ∧ 2 ^ 29 < a.cap ∧ a.cap < 2 ^ 30)) {e : Int} {s1 : Heap K V}
    (h1 : allocateEntry k s = .ok e s1) :
    s1.size = s.size + 1 ∧ s1.comp = s.comp ∧ But P s1 (s.size + 1) s.size := by
  have hcap := h.cap
  have hsz := h.sz
  have hul := h.used_le
  have hsl := h.size_le
  cases hf : a.freed with
  | cons x fs =>
    rw [place_free h k hf] at h1
    simp only [Res.ok.injEq] at h1
    rw [← h1.2]; exact ⟨rfl, rfl, but_placed h hP hk _ _⟩
  | nil =>
    by_cases hr : s.size < s.tree.len
    · rw [place_new h k hf hr] at h1
      simp only [Res.ok.injEq] at h1
      rw [← h1.2]; exact ⟨rfl, rfl, but_placed h hP hk _ _⟩
    · have hfull : a.Full := ⟨hf, by omega⟩
      by_cases hst : a.Stuck
      · rw [place_stuck h k hfull hst] at h1; simp at h1
      · have c1 : a.cap ≠ 2 ^ 29 := fun h => hst (.inr (.inl h))
        have c2 : a.cap ≠ 0 := fun h => hst (.inl h)
        have c3 : ¬ 2 ^ 30 ≤ a.cap := fun h => hst (.inr (.inr h))
        have c4 : ¬ (2 ^ 29 < a.cap ∧ a.cap < 2 ^ 30) := fun hx => hg ⟨hfull, hx⟩
        have hn : s.size < min (2 * a.cap) (2 ^ 29) := by omega
        rw [place_grow h k hf (by omega) hn (calc_ok s a h hst)] at h1
        have hgi := grown_inv h (n := min (2 * a.cap) (2 ^ 29)) (by omega)
        rw [place_new hgi k hf (by show s.size < (((min (2 * a.cap) (2 ^ 29)).toNat : Nat) : Int); omega)] at h1
        simp only [Res.ok.injEq] at h1
        rw [← h1.2]; exact ⟨rfl, rfl, but_placed hgi hP hk _ _⟩

theorem insert_same (hE : Comparable eff C P) {s : Heap K V} {a : Abs K V} (h : Inv s a) (hP : Keys P a)
    (hc : C s.comp) {k : K} (hk : P k) (hg : ¬ (a.Full ∧ 2 ^ 29 < a.cap ∧ a.cap < 2 ^ 30)) :
    Same (HeapEff.insert eff k) (Heap.insert k) s := by
  have hsz := h.sz
  unfold HeapEff.insert Heap.insert
  refine .getc (.step fun e s1 h1 => ?_)
  obtain ⟨g1, g2, g3⟩ := alloc_but h hP hk hg h1
  exact .bind (filterUp_same hE hk e (by omega) (by omega) (by rw [g2]; exact hc) g3).1 fun _ _ _ => .pure _ _

theorem step_same [BEq K] [BEq V] (hE : Comparable eff C P) {s : Heap K V} {a : Abs K V} (h : Inv s a)
    (hP : Keys P a) (hc : C s.comp) (o : Op K V) (hg : Guard o a) (hu : Uses C P o) :
    Same (HeapEff.step eff o) (Heap.step o) s := by
  have hz := h.sz
  have hsl := h.size_le
  have hb := h.big
  have hil := h.good.il
  have hkl := h.good.kl
  have hul := h.used_le
  have hcap := h.cap
  have hbut := but_of_inv h hP
  have wrap : ∀ {α : Type} {m' : JM (Obs σ K V) α} {m : JM (Heap K V) α} (g : α → Out K V),
      Same m' m s → Same (do let x ← m'; pure (g x)) (do let x ← m; pure (g x)) s :=
    fun g hc => .bind hc (fun _ _ _ => .pure _ _)
  cases o with
  | insert k => exact wrap _ (insert_same hE h hP hc hu hg.2)
  | insertKV k v =>
    refine wrap _ ?_
    unfold HeapEff.insertKV Heap.insertKV
    exact .bind (insert_same hE h hP hc hu hg.2) fun e s1 h1 => .step fun _ s2 h2 => .pure _ _
  | removeAt e =>
    refine wrap (fun _ => .unit) ?_
    unfold HeapEff.removeAt Heap.removeAt
    refine .getc ?_
    split
    · exact .throw _ _
    · rename_i hr
      refine .step fun node s1 h1 => ?_
      obtain ⟨e1, e2⟩ := rd_inv h1
      subst s1
      split
      · exact .throw _ _
      · rename_i hnode
        have hin : e ∈ a.live := by
          by_cases hx : e < used a
          · rcases h.all e (by omega) hx with hy | hy
            · exact hy
            · have := h.inv_freed hy; omega
          · have hy := h.unused e (by omega) (by omega)
            have hsz : s.size = 0 := by
              rcases hg with hw | hw | hw
              · rw [hz, hw]; rfl
              · unfold used at hx; omega
              · omega
            omega
        obtain ⟨p0, p1, p2⟩ := h.inv_live hin
        refine .step fun _ s2 h2 => .step fun _ s3 h3 => .step fun _ s4 h4 => .step fun le s5 h5 =>
          .step fun k s6 h6 => .step fun _ s7 h7 => .step fun _ s8 h8 => .step fun _ s9 h9 => ?_
        have f2 := wr_inv h2
        unfold clearValueAt at h3
        obtain ⟨_, t, ht, h3⟩ := bind_inv h3
        simp only [JM.get_apply, Res.ok.injEq] at ht
        obtain ⟨rfl, rfl⟩ := ht
        have f3 := wr_inv h3
        simp only [JM.modify_apply, Res.ok.injEq, true_and] at h4 h7
        obtain ⟨f5, f5'⟩ := rd_inv h5
        obtain ⟨f6, f6'⟩ := rd_inv h6
        have f8 := wr_inv h8
        have f9 := wr_inv h9
        subst s9 s8 s7 s6 s5 s4 s3 s2
        simp only at f5' f6'
        split
        · exact .pure _ _
        · rename_i hne
          have hle : le = s.tree.get (s.size - 1) := f5'
          have hlel : le ∈ a.live := by rw [hle]; exact h.live_at (by omega) (by omega)
          have hlene : le ≠ e := by
            intro hx
            have := h.good.at' (s.size - 1) (by omega) (by omega)
            rw [← hle, hx] at this
            omega
          have hk : P k := by
            rw [f6', Arr.get_set_ne _ _ hlene]
            have hr := h.rng _ (.inl hlel)
            rw [h.keys _ hr.1 (by omega)]
            exact hP _ hlel
          refine sift_same hE hk le (by omega) (by show node < s.size - 1; omega) (by show s.size - 1 ≤ _; omega) hc ?_
          intro p q0 q1 q2
          have q1 : p < s.size - 1 := q1
          show P ((s.keys.set e s.defaultKey).get ((s.tree.set (s.size - 1) e).get p))
          have hps : p ≠ s.size - 1 := by omega
          rw [Arr.get_set_ne s.tree _ hps]
          have hpe : s.tree.get p ≠ e := by
            intro hx
            have := h.good.at' p q0 (by omega)
            rw [hx] at this
            omega
          rw [Arr.get_set_ne _ _ hpe]
          exact hbut p q0 (by omega) (by omega)
  | resetKey e k =>
    refine wrap (fun _ => .unit) ?_
    unfold HeapEff.resetKey Heap.resetKey
    refine .step fun _ s1 h1 => ?_
    have e1 := wr_inv h1
    have hin : e ∈ a.live := by
      rcases hg with hx | hx
      · exact hx
      · exfalso
        have : wrKeys e k s = .err .indexOutOfBounds s := wr_oob _ _ (by omega)
        rw [this] at h1; simp at h1
    obtain ⟨p0, p1, p2⟩ := h.inv_live hin
    refine .step fun node s2 h2 => ?_
    obtain ⟨e2, e3⟩ := rd_inv h2
    subst s2 s1
    simp only at e3
    refine sift_same hE hu e (by omega) (by show node < s.size; omega) (by show s.size ≤ _; omega) hc ?_
    intro p q0 q1 q2
    show P ((s.keys.set e k).get (s.tree.get p))
    rw [Arr.get_set]
    split
    · exact hu
    · exact hbut p q0 q1 (by omega)
  | setComparator c =>
    refine wrap (fun _ => .unit) ?_
    cases c with
    | none => exact .throw _ _
    | some c =>
      unfold HeapEff.setComparator Heap.setComparator
      refine .getc ?_
      split
      · exact .pure _ _
      · refine .step fun _ s1 h1 => ?_
        simp only [JM.modify_apply, Res.ok.injEq, true_and] at h1
        subst s1
        exact .bind (rebuild_same hE _ 0 _ hu hbut (by omega) (by show (0 : Int) + (s.size.toNat : Int) = s.size; omega))
          fun _ _ _ => .free _ _
  | containsKey k =>
    refine wrap _ ?_
    unfold HeapEff.containsKey Heap.containsKey HeapEff.getFirstEntry Heap.getFirstEntry
    exact .bind (.getc (first_same hE hu hc hbut _ _ (by omega) (by omega))) fun _ _ _ => .pure _ _
  | getFirstEntry k =>
    refine wrap _ ?_
    unfold HeapEff.getFirstEntry Heap.getFirstEntry
    exact .getc (first_same hE hu hc hbut _ _ (by omega) (by omega))
  | _ => first
    | exact .free _ _
    | exact .free (Heap.step .getSize) _ | exact .free (Heap.step .isEmpty) _
    | exact .free (Heap.step .getCapacity) _ | exact .free (Heap.step .getDefaultKey) _
    | exact .free (Heap.step .getDefaultValue) _

theorem keys_after [BEq K] [BEq V] {s : Heap K V} {a : Abs K V} (h : Inv s a) (hP : Keys P a) (o : Op K V)
    (hu : Uses C P o) : Keys P (after o a) := by
  have ins : ∀ k, P k → Keys P (a.insert k) := by
    intro k hk e he
    show P (upd a.keyOf a.entry k e)
    unfold upd
    split
    · exact hk
    · rename_i hne
      rcases List.mem_cons.1 he with hx | hx
      · exact absurd hx hne
      · exact hP e hx
  cases o with
  | insert k =>
    simp only [after]
    split
    · exact hP
    · exact ins k hu
  | insertKV k v =>
    simp only [after]
    split
    · exact hP
    · exact ins k hu
  | removeAt e =>
    simp only [after]
    split
    · intro x hx
      have := (List.Nodup.mem_erase_iff h.nd).1 hx
      show P (upd a.keyOf e a.dk x)
      unfold upd
      rw [if_neg this.1]
      exact hP x this.2
    · exact hP
  | resetKey e k =>
    simp only [after]
    split
    · intro x hx
      show P (upd a.keyOf e k x)
      unfold upd
      split
      · exact hu
      · exact hP x hx
    · exact hP
  | setComparator c => cases c <;> exact hP
  | clear => intro x hx; exact absurd hx List.not_mem_nil
  | setDefaultKey k =>
    simp only [after]
    split
    · exact hP
    · rename_i hx
      have : a.live = [] := by
        by_contra hne
        exact hx (.inl hne)
      intro x hx
      rw [show ({ a with dk := k, keyOf := fun _ => k } : Abs K V).live = a.live from rfl, this] at hx
      exact absurd hx List.not_mem_nil
  | setDefaultValue v => simp only [after]; split <;> exact hP
  | setValueAt e v => simp only [after]; split <;> exact hP
  | _ => exact hP

theorem comp_after [BEq K] [BEq V] {a : Abs K V} (hc : C a.cmp) (o : Op K V) (hu : Uses C P o) :
    C (after o a).cmp := by
  cases o with
  | setComparator c =>
    cases c with
    | none => exact hc
    | some c => exact hu
  | _ => simp only [after] <;> (try split) <;> exact hc

theorem run_same [BEq K] [BEq V] (hE : Comparable eff C P) : ∀ (ops : List (Op K V)) (s : Heap K V) (a : Abs K V) (u : σ),
    Inv s a → Keys P a → C a.cmp → Guarded a ops → (∀ o ∈ ops, Uses C P o) →
    (runM (HeapEff.step eff) ⟨s, u⟩ ops).1 = (runM Heap.step s ops).1 ∧
      (runM (HeapEff.step eff) ⟨s, u⟩ ops).2.heap = (runM Heap.step s ops).2
  | [], s, a, u, _, _, _, _, _ => ⟨rfl, rfl⟩
  | o :: ops, s, a, u, h, hP, hc, hg, hu => by
    have ho := hu o List.mem_cons_self
    obtain ⟨u', e⟩ := step_same hE h hP (by rw [h.cmp]; exact hc) o hg.1 ho u
    obtain ⟨-, h2, -⟩ := step_spec h o hg.1
    have key : (HeapEff.step eff o ⟨s, u⟩).out = (Heap.step o s).out ∧
        (HeapEff.step eff o ⟨s, u⟩).state = ⟨(Heap.step o s).state, u'⟩ := by
      rw [e]; unfold lifts; cases Heap.step o s <;> exact ⟨rfl, rfl⟩
    obtain ⟨i1, i2⟩ := run_same hE ops _ _ u' h2 (keys_after h hP o ho) (comp_after hc o ho) hg.2
      (fun o' ho' => hu o' (List.mem_cons_of_mem _ ho'))
    simp only [runM]
    rw [key.1, key.2]
    exact ⟨by rw [i1], i2⟩

end Verif.HeapErase
