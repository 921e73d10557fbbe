import Verif.Proofs.Heap1
set_option linter.unusedSectionVars false
/-! The loops of the heap compute the pure sifting functions. -/
namespace Verif.HeapProof
open Verif.HeapSpec Verif.Heap
variable {K V : Type}

/-- Comparison of the keys of two entries. -/
abbrev ce (s : Heap K V) (a b : Int) : Int := s.comp.compare (s.keys.get a) (s.keys.get b)

/-- The arrays agree in the first `m` positions except at `c`, where `entry` is to be put. -/
structure Pos (s : Heap K V) (m c entry : Int) : Prop where
  il : s.inverse.len = s.tree.len
  kl : s.keys.len = s.tree.len
  ml : m ≤ s.tree.len
  er : 0 ≤ entry ∧ entry < s.tree.len
  at' : ∀ p, 0 ≤ p → p < m → p ≠ c →
    (0 ≤ s.tree.get p ∧ s.tree.get p < s.tree.len) ∧ s.inverse.get (s.tree.get p) = p ∧ s.tree.get p ≠ entry

/-- The arrays agree in the first `m` positions. -/
structure Good (s : Heap K V) (m : Int) : Prop where
  il : s.inverse.len = s.tree.len
  kl : s.keys.len = s.tree.len
  ml : m ≤ s.tree.len
  at' : ∀ p, 0 ≤ p → p < m →
    (0 ≤ s.tree.get p ∧ s.tree.get p < s.tree.len) ∧ s.inverse.get (s.tree.get p) = p

theorem Good.pos {s : Heap K V} {m c : Int} (h : Good s m) (hc : 0 ≤ c ∧ c < m) :
    Pos s m c (s.tree.get c) := by
  refine ⟨h.il, h.kl, h.ml, (h.at' c hc.1 hc.2).1, fun p h0 h1 h2 => ?_⟩
  obtain ⟨g1, g2⟩ := h.at' p h0 h1
  refine ⟨g1, g2, fun he => h2 ?_⟩
  rw [← g2, he, (h.at' c hc.1 hc.2).2]

/-- What sifting may change: `tree` and `inverse`, not their lengths, and not the inverse of entries
outside the first `m` positions. -/
structure Sifted (s s' : Heap K V) (T : Int → Int) (m : Int) : Prop where
  shape : ∃ A I, s' = { s with
    tree := A, inverse := I }
  tl : s'.tree.len = s.tree.len
  il : s'.inverse.len = s.inverse.len
  frame : ∀ e, (∀ p, 0 ≤ p → p < m → T p ≠ e) → s'.inverse.get e = s.inverse.get e

theorem upd_swap (A : Int → Int) {c q entry : Int} (h : q ≠ c) :
    upd (upd A c (A q)) q entry = swap (upd A c entry) c q := by
  funext p
  unfold upd swap
  by_cases h1 : p = q
  · subst h1; simp [h]
  · by_cases h2 : p = c
    · subst h2; simp [h1, h]
    · simp [h1, h2]

/-- One exchange: the occupant of `q` moves to the hole at `c`. -/
theorem pos_move {s : Heap K V} {m c q entry : Int} (h : Pos s m c entry) (hc : 0 ≤ c ∧ c < m)
    (hq : 0 ≤ q ∧ q < m) (hne : q ≠ c) :
    Pos { s with
      tree := s.tree.set c (s.tree.get q)
      inverse := s.inverse.set (s.tree.get q) c } m q entry := by
  refine ⟨h.il, h.kl, h.ml, h.er, fun p h0 h1 hpq => ?_⟩
  simp only
  by_cases hpc : p = c
  · subst hpc
    obtain ⟨g1, g2, g3⟩ := h.at' q hq.1 hq.2 hne
    rw [Arr.get_set_self, Arr.get_set_self]
    exact ⟨g1, rfl, g3⟩
  · rw [Arr.get_set_ne _ _ hpc]
    obtain ⟨g1, g2, g3⟩ := h.at' p h0 h1 hpc
    have : s.tree.get p ≠ s.tree.get q := by
      intro he
      obtain ⟨_, k2, _⟩ := h.at' q hq.1 hq.2 hne
      exact hpq (by rw [← g2, he, k2])
    rw [Arr.get_set_ne _ _ this]
    exact ⟨g1, g2, g3⟩

theorem tree_move {s : Heap K V} {c q : Int} :
    (s.tree.set c (s.tree.get q)).get = upd s.tree.get c (s.tree.get q) := rfl

theorem filterUpLoop_spec {m entry : Int} : ∀ (f : Nat) (s : Heap K V) (c : Int),
    Pos s m c entry → 0 ≤ c → c < m → c ≤ f →
    ∃ s', filterUpLoop (s.keys.get entry) f c s = .ok (up (ce s) f (upd s.tree.get c entry) c).2 s' ∧
      Sifted s s' (upd s.tree.get c entry) m ∧
      Pos s' m (up (ce s) f (upd s.tree.get c entry) c).2 entry ∧
      upd s'.tree.get (up (ce s) f (upd s.tree.get c entry) c).2 entry =
        (up (ce s) f (upd s.tree.get c entry) c).1
  | 0, s, c, h, h0, h1, hf => by
    have : c = 0 := by omega
    subst this
    refine ⟨s, ?_, ⟨⟨s.tree, s.inverse, rfl⟩, rfl, rfl, fun _ _ => rfl⟩, h, rfl⟩
    unfold filterUpLoop; rw [if_pos rfl]; rfl
  | f + 1, s, c, h, h0, h1, hf => by
    have hstay : Sifted s s (upd s.tree.get c entry) m :=
      ⟨⟨s.tree, s.inverse, rfl⟩, rfl, rfl, fun _ _ => rfl⟩
    unfold filterUpLoop
    by_cases hc : c = 0
    · rw [if_pos hc]
      simp only [up, if_pos hc]
      exact ⟨s, rfl, hstay, h, rfl⟩
    · rw [if_neg hc]
      have hq : 0 ≤ par c ∧ par c < c := by simp only [par]; omega
      have hne : par c ≠ c := by omega
      obtain ⟨g1, g2, g3⟩ := h.at' (par c) hq.1 (by omega) hne
      have hml := h.ml
      have hil := h.il
      have hkl := h.kl
      simp only
      rw [show (c - 1) / 2 = par c from rfl]
      rw [JM.bind_ok (rd_ok _ (by omega)), JM.bind_ok (rd_ok _ (by omega)), JM.bind_ok (JM.get_apply _)]
      have hTc : upd s.tree.get c entry c = entry := by simp [upd]
      have hTq : upd s.tree.get c entry (par c) = s.tree.get (par c) := by simp [upd, hne]
      by_cases hcmp : s.comp.compare (s.keys.get entry) (s.keys.get (s.tree.get (par c))) ≥ 0
      · rw [if_pos hcmp]
        have : ce s (upd s.tree.get c entry c) (upd s.tree.get c entry (par c)) ≥ 0 := by
          rw [hTc, hTq]; exact hcmp
        simp only [up, if_neg hc, if_pos this]
        exact ⟨s, rfl, hstay, h, rfl⟩
      · rw [if_neg hcmp]
        have hlt : ¬ ce s (upd s.tree.get c entry c) (upd s.tree.get c entry (par c)) ≥ 0 := by
          rw [hTc, hTq]; exact hcmp
        simp only [up, if_neg hc, if_neg hlt]
        rw [JM.bind_ok (rd_ok _ (by omega)), JM.bind_ok (wr_ok _ _ (by omega)),
          JM.bind_ok (rd_ok _ (by simp only [Arr.len_set]; omega))]
        simp only [Arr.get_set_self]
        rw [JM.bind_ok (wr_ok _ _ (by
          show 0 ≤ s.tree.get (par c) ∧ s.tree.get (par c) < (s.inverse.len : Int)
          omega))]
        have hpos := pos_move h ⟨h0, h1⟩ ⟨hq.1, by omega⟩ hne
        obtain ⟨s', e1, e2, e3, e4⟩ := filterUpLoop_spec f _ (par c) hpos hq.1 (by omega) (by omega)
        have hT : upd (upd s.tree.get c (s.tree.get (par c))) (par c) entry =
            swap (upd s.tree.get c entry) c (par c) := upd_swap _ hne
        simp only [tree_move, hT] at e1 e2 e3 e4
        refine ⟨s', e1, ?_, e3, e4⟩
        obtain ⟨⟨A, I, hs'⟩, tl, il, fr⟩ := e2
        refine ⟨⟨A, I, hs'⟩, tl, il, fun e he => ?_⟩
        rw [fr e ?_]
        · refine Arr.get_set_ne _ _ ?_
          have := he (par c) hq.1 (by omega)
          rw [hTq] at this
          exact fun hx => this hx.symm
        · intro p p0 p1 hp
          obtain ⟨p', k0, k1, k2⟩ := (sameImage_swap (upd s.tree.get c entry) (n := m) ⟨h0, h1⟩
            ⟨hq.1, by omega⟩ e).1 ⟨p, p0, p1, hp⟩
          exact he p' k0 k1 k2

theorem Pos.put {s : Heap K V} {m c entry : Int} (h : Pos s m c entry) (hc : 0 ≤ c ∧ c < m) :
    Good { s with
      tree := s.tree.set c entry
      inverse := s.inverse.set entry c } m := by
  refine ⟨h.il, h.kl, h.ml, fun p h0 h1 => ?_⟩
  simp only
  by_cases hpc : p = c
  · subst hpc
    rw [Arr.get_set_self, Arr.get_set_self]
    exact ⟨h.er, rfl⟩
  · obtain ⟨g1, g2, g3⟩ := h.at' p h0 h1 hpc
    rw [Arr.get_set_ne _ _ hpc, Arr.get_set_ne _ _ g3]
    exact ⟨g1, g2⟩

theorem filterUp_spec {m entry : Int} (s : Heap K V) {c : Int}
    (h : Pos s m c entry) (h0 : 0 ≤ c) (h1 : c < m) :
    ∃ s', filterUp c (s.keys.get entry) entry s =
        .ok (up (ce s) c.toNat (upd s.tree.get c entry) c).2 s' ∧
      Sifted s s' (upd s.tree.get c entry) m ∧ Good s' m ∧
      s'.tree.get = (up (ce s) c.toNat (upd s.tree.get c entry) c).1 := by
  obtain ⟨s1, e1, ⟨⟨A, I, hs⟩, tl, il, fr⟩, e3, e4⟩ := filterUpLoop_spec c.toNat s c h h0 h1 (by omega)
  obtain ⟨⟨b1, b2⟩, _⟩ := up_basic (ce s) c.toNat (upd s.tree.get c entry) c h0
  have hml := h.ml
  have hil := h.il
  have her := h.er
  have m1 := e3.ml
  unfold filterUp
  rw [JM.bind_ok e1, JM.bind_ok (wr_ok _ _ (by omega)),
    JM.bind_ok (wr_ok _ _ (by show 0 ≤ entry ∧ entry < (s1.inverse.len : Int); omega))]
  refine ⟨_, rfl, ⟨⟨_, _, by rw [hs]⟩, tl, il, fun e he => ?_⟩, e3.put ⟨b1, by omega⟩, e4⟩
  have hne : e ≠ entry := by
    have := he c h0 h1
    simp only [upd, if_true] at this
    exact fun hx => this hx.symm
  show (s1.inverse.set entry _).get e = _
  rw [Arr.get_set_ne _ _ hne]
  exact fr e he

theorem childIdx {c : Int} (h : 0 ≤ c ∧ c < 1073741823) : i32 (shl32 c 1 + 1) = 2 * c + 1 := by
  rw [shl32_one (by omega), i32_of_range (by omega)]

/-- The imperative choice of the child and its key. -/
theorem pick_child {s : Heap K V} {m c entry : Int} (h : Pos s m c entry) (h0 : 0 ≤ c)
    (hm : s.size ≤ m) (hn : 2 * c + 1 < s.size) :
    (if 2 * c + 1 + 1 < s.size then do
        let re ← rd Heap.tree (2 * c + 1 + 1)
        let rightKey ← rd Heap.keys re
        if s.comp.compare (s.keys.get (s.tree.get (2 * c + 1))) rightKey > 0 then
          pure (2 * c + 1 + 1, rightKey)
        else pure (2 * c + 1, s.keys.get (s.tree.get (2 * c + 1)))
      else (pure (2 * c + 1, s.keys.get (s.tree.get (2 * c + 1))) : JM (Heap K V) (Int × K))) s =
    .ok (child (ce s) s.size (upd s.tree.get c entry) c,
      s.keys.get (s.tree.get (child (ce s) s.size (upd s.tree.get c entry) c))) s := by
  have e1 : upd s.tree.get c entry (2 * c + 1) = s.tree.get (2 * c + 1) := by
    unfold upd; rw [if_neg (by omega)]
  have e2 : upd s.tree.get c entry (2 * c + 1 + 1) = s.tree.get (2 * c + 1 + 1) := by
    unfold upd; rw [if_neg (by omega)]
  have hml := h.ml
  have hkl := h.kl
  unfold child
  by_cases hr : 2 * c + 1 + 1 < s.size
  · rw [if_pos hr, if_pos hr]
    obtain ⟨g1, g2, g3⟩ := h.at' (2 * c + 1 + 1) (by omega) (by omega) (by omega)
    rw [JM.bind_ok (rd_ok _ (by omega)), JM.bind_ok (rd_ok _ (by omega)), e1, e2]
    by_cases hgt : ce s (s.tree.get (2 * c + 1)) (s.tree.get (2 * c + 1 + 1)) > 0
    · rw [if_pos hgt, if_pos hgt]; rfl
    · rw [if_neg hgt, if_neg hgt]; rfl
  · rw [if_neg hr, if_neg hr]; rfl

theorem filterDownLoop_spec {m entry : Int} (hb : m ≤ 1073741824) : ∀ (f : Nat) (s : Heap K V) (c : Int),
    Pos s m c entry → 0 ≤ c → c < s.size → s.size ≤ m → s.size - c ≤ f →
    ∃ s', filterDownLoop (s.keys.get entry) f c s =
        .ok (down (ce s) s.size f (upd s.tree.get c entry) c).2 s' ∧
      Sifted s s' (upd s.tree.get c entry) m ∧
      Pos s' m (down (ce s) s.size f (upd s.tree.get c entry) c).2 entry ∧
      upd s'.tree.get (down (ce s) s.size f (upd s.tree.get c entry) c).2 entry =
        (down (ce s) s.size f (upd s.tree.get c entry) c).1
  | 0, s, c, h, h0, h1, hm, hf => by omega
  | f + 1, s, c, h, h0, h1, hm, hf => by
    have hstay : Sifted s s (upd s.tree.get c entry) m :=
      ⟨⟨s.tree, s.inverse, rfl⟩, rfl, rfl, fun _ _ => rfl⟩
    unfold filterDownLoop
    rw [JM.bind_ok (JM.get_apply _)]
    by_cases hbig : c < 1073741823
    · rw [childIdx ⟨h0, hbig⟩]
      by_cases hn : 2 * c + 1 < s.size
      · simp only
        rw [if_pos hn]
        simp only [down, if_pos hn]
        have hml := h.ml
        have hil := h.il
        have hkl := h.kl
        obtain ⟨g1, g2, g3⟩ := h.at' (2 * c + 1) (by omega) (by omega) (by omega)
        rw [JM.bind_ok (rd_ok _ (by omega)), JM.bind_ok (rd_ok _ (by omega)),
          JM.bind_ok (pick_child h h0 hm hn)]
        obtain ⟨c1, c2, c3⟩ := child_range (ce s) (upd s.tree.get c entry) h0 hn
        generalize hq : child (ce s) s.size (upd s.tree.get c entry) c = q at *
        have hne : q ≠ c := by omega
        have hTc : upd s.tree.get c entry c = entry := by simp [upd]
        have hTq : upd s.tree.get c entry q = s.tree.get q := by simp [upd, hne]
        obtain ⟨k1, k2, k3⟩ := h.at' q (by omega) (by omega) hne
        simp only
        by_cases hcmp : s.comp.compare (s.keys.get entry) (s.keys.get (s.tree.get q)) < 0
        · rw [if_pos hcmp]
          have : ce s (upd s.tree.get c entry c) (upd s.tree.get c entry q) < 0 := by
            rw [hTc, hTq]; exact hcmp
          simp only [if_pos this]
          exact ⟨s, rfl, hstay, h, rfl⟩
        · rw [if_neg hcmp]
          have : ¬ ce s (upd s.tree.get c entry c) (upd s.tree.get c entry q) < 0 := by
            rw [hTc, hTq]; exact hcmp
          simp only [if_neg this]
          rw [JM.bind_ok (rd_ok _ (by omega)), JM.bind_ok (wr_ok _ _ (by omega)),
            JM.bind_ok (rd_ok _ (by simp only [Arr.len_set]; omega))]
          simp only [Arr.get_set_self]
          rw [JM.bind_ok (wr_ok _ _ (by show 0 ≤ s.tree.get q ∧ s.tree.get q < (s.inverse.len : Int); omega))]
          have hpos := pos_move h ⟨h0, by omega⟩ ⟨by omega, by omega⟩ hne
          obtain ⟨s', e1, e2, e3, e4⟩ := filterDownLoop_spec hb f _ q hpos (by omega) c2 hm
            (by show s.size - q ≤ f; omega)
          have hT : upd (upd s.tree.get c (s.tree.get q)) q entry =
              swap (upd s.tree.get c entry) c q := upd_swap _ hne
          simp only [tree_move, hT] at e1 e2 e3 e4
          refine ⟨s', e1, ?_, e3, e4⟩
          obtain ⟨⟨A, I, hs'⟩, tl, il, fr⟩ := e2
          refine ⟨⟨A, I, hs'⟩, tl, il, fun e he => ?_⟩
          rw [fr e ?_]
          · refine Arr.get_set_ne _ _ ?_
            have := he q (by omega) (by omega)
            rw [hTq] at this
            exact fun hx => this hx.symm
          · intro p p0 p1 hp
            obtain ⟨p', l0, l1, l2⟩ := (sameImage_swap (upd s.tree.get c entry) (n := m) ⟨h0, by omega⟩
              ⟨by omega, by omega⟩ e).1 ⟨p, p0, p1, hp⟩
            exact he p' l0 l1 l2
      · simp only
        rw [if_neg hn]
        simp only [down, if_neg hn]
        exact ⟨s, rfl, hstay, h, rfl⟩
    · have : c = 1073741823 := by omega
      have hi : ¬ i32 (shl32 c 1 + 1) < s.size := by
        rw [this, show i32 (shl32 1073741823 1 + 1) = 2147483647 by decide]; omega
      simp only
      rw [if_neg hi]
      have hn : ¬ 2 * c + 1 < s.size := by omega
      simp only [down, if_neg hn]
      exact ⟨s, rfl, hstay, h, rfl⟩

theorem filterDown_spec {m entry : Int} (hb : m ≤ 1073741824) (s : Heap K V) {c : Int}
    (h : Pos s m c entry) (h0 : 0 ≤ c) (h1 : c < s.size) (hm : s.size ≤ m) :
    ∃ s', filterDown c (s.keys.get entry) entry s = .ok () s' ∧
      Sifted s s' (upd s.tree.get c entry) m ∧ Good s' m ∧
      s'.tree.get = (down (ce s) s.size (s.size.toNat + 1) (upd s.tree.get c entry) c).1 := by
  obtain ⟨s1, e1, ⟨⟨A, I, hs⟩, tl, il, fr⟩, e3, e4⟩ :=
    filterDownLoop_spec hb (s.size.toNat + 1) s c h h0 h1 hm (by omega)
  obtain ⟨⟨b1, b2⟩, _⟩ :=
    down_basic (ce s) s.size (s.size.toNat + 1) (upd s.tree.get c entry) c h0 h1
  have hml := h.ml
  have hil := h.il
  have her := h.er
  have m1 := e3.ml
  unfold filterDown
  rw [JM.bind_ok (JM.get_apply _), JM.bind_ok e1, JM.bind_ok (wr_ok _ _ (by omega)),
    wr_ok _ _ (by show 0 ≤ entry ∧ entry < (s1.inverse.len : Int); omega)]
  refine ⟨_, rfl, ⟨⟨_, _, by rw [hs]⟩, tl, il, fun e he => ?_⟩, e3.put ⟨by omega, by omega⟩, e4⟩
  have hne : e ≠ entry := by
    have := he c h0 (by omega)
    simp only [upd, if_true] at this
    exact fun hx => this hx.symm
  show (s1.inverse.set entry _).get e = _
  rw [Arr.get_set_ne _ _ hne]
  exact fr e he

/-- `filterDown(filterUp(c, key, entry), key, entry)`, as `removeAt` and `resetKey` use it. -/
theorem sift_spec {m entry : Int} (hb : m ≤ 1073741824) (s : Heap K V) {c : Int} (h : Pos s m c entry)
    (h0 : 0 ≤ c) (h1 : c < s.size) (hm : s.size ≤ m) :
    ∃ s', (do let at' ← filterUp c (s.keys.get entry) entry
              filterDown at' (s.keys.get entry) entry : JM (Heap K V) Unit) s = .ok () s' ∧
      Sifted s s' (upd s.tree.get c entry) m ∧ Good s' m ∧
      SameImage (upd s.tree.get c entry) s'.tree.get s.size ∧
      (∀ p, s.size ≤ p → s'.tree.get p = s.tree.get p) ∧
      (∀ P, Pre P (ce s) → Within P (upd s.tree.get c entry) s.size →
        Hole (ce s) (upd s.tree.get c entry) c s.size → Ord (ce s) s'.tree.get s.size) := by
  obtain ⟨s1, e1, ⟨⟨A, I, hs⟩, tl, il, fr⟩, hg, ht⟩ := filterUp_spec s h h0 (by omega)
  have hsz : s1.size = s.size := by rw [hs]
  have hce : ce s1 = ce s := by rw [hs]
  have hkeys : s1.keys = s.keys := by rw [hs]
  obtain ⟨⟨b1, b2⟩, b3, b4, b5⟩ := up_basic (ce s) c.toNat (upd s.tree.get c entry) c h0
  have hTc : upd s.tree.get c entry c = entry := by simp [upd]
  have ht2 : s1.tree.get (up (ce s) c.toNat (upd s.tree.get c entry) c).2 = entry := by
    rw [ht, b3, hTc]
  have hpos := hg.pos (c := (up (ce s) c.toNat (upd s.tree.get c entry) c).2) ⟨b1, by omega⟩
  rw [ht2] at hpos
  obtain ⟨s2, f1, ⟨⟨A2, I2, hs2⟩, tl2, il2, fr2⟩, hg2, ht3⟩ :=
    filterDown_spec hb s1 hpos b1 (by omega) (by omega)
  have hupd : upd s1.tree.get (up (ce s) c.toNat (upd s.tree.get c entry) c).2 entry = s1.tree.get := by
    funext p
    rw [show upd s1.tree.get (up (ce s) c.toNat (upd s.tree.get c entry) c).2 entry p =
      if p = (up (ce s) c.toNat (upd s.tree.get c entry) c).2 then entry else s1.tree.get p from rfl]
    split
    · rename_i hx; rw [hx, ht2]
    · rfl
  rw [hupd, hce, hsz] at ht3
  obtain ⟨_, d3, d4, d5⟩ := down_basic (ce s) s.size (s.size.toNat + 1) s1.tree.get _ b1 (by omega :
    (up (ce s) c.toNat (upd s.tree.get c entry) c).2 < s.size)
  rw [hupd] at fr2
  refine ⟨s2, ?_, ⟨⟨A2, I2, by rw [hs2, hs]⟩, by rw [tl2, tl], by rw [il2, il], ?_⟩, hg2, ?_, ?_, ?_⟩
  · rw [JM.bind_ok e1, ← hkeys]; exact f1
  · intro e he
    rw [fr2 e ?_, fr e he]
    intro p p0 p1 hp
    rw [ht] at hp
    obtain ⟨p', l0, l1, l2⟩ := (b5 m (by omega) e).1 ⟨p, p0, p1, hp⟩
    exact he p' l0 l1 l2
  · have := b5 s.size h1
    rw [← ht] at this
    rw [ht3]; exact this.trans d5
  · intro p hp
    rw [ht3, d4 p hp, ht, b4 p (by omega)]
    unfold upd; rw [if_neg (by omega)]
  · intro P hP hw hh
    have hd := up_hole hP c.toNat (upd s.tree.get c entry) c h0 h1 (by omega) hw hh
    have hw' := within_of_same (b5 s.size h1) hw
    rw [← ht] at hd hw'
    rw [ht3]
    exact down_ord hP (s.size.toNat + 1) _ _ b1 (by omega) (by omega) hw' hd

end Verif.HeapProof
