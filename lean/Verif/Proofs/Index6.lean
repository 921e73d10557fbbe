import Verif.Proofs.Index5
import Mathlib.Data.List.Nodup
/-! Proofs about the indexed map, part 6: iteration with callbacks. -/
set_option linter.unusedSectionVars false
namespace Verif
namespace Index
open IndexSpec
variable {K V : Type} [Inhabited K] [Inhabited V]
variable {tight : Prop} {s : Index K V} {a : Abs K V} {F : List Int}

/-- The entries of a chain. -/
def chainFrom (n : Arr Int) : Nat → Int → List Int
  | 0, _ => []
  | f + 1, e => if e ≥ 0 then e :: chainFrom n f (n.get e) else []

theorem chainFrom_path (n : Arr Int) : ∀ (f : Nat) (e : Int) (l : List Int) (t : Int),
    Path n e l t → l.length < f → chainFrom n f e = l
  | 0, _, _, _, _, h => by omega
  | f + 1, e, [], t, hp, _ => by
    have h1 := hp.1; have h2 := hp.2
    rw [chainFrom, if_neg (by omega)]
  | f + 1, e, x :: l, t, hp, hf => by
    obtain ⟨rfl, h0, h1, h2⟩ := hp
    rw [chainFrom, if_pos h0, chainFrom_path n f _ l t h2 (by simpa using hf)]

/-- The entries in the order of the walks, from head `i` on, over `n` heads. -/
def orderFrom (s : Index K V) : Nat → Int → List Int
  | 0, _ => []
  | n + 1, i => chainFrom s.nexts (s.nexts.len + 1) (s.heads.get i) ++ orderFrom s n (i + 1)

/-- The entries in the order of the walks. -/
def order (s : Index K V) : List Int := orderFrom s s.heads.len 0

theorem chain_at (h : Inv tight s a F) {i : Int} (h0 : 0 ≤ i) (h1 : i < s.heads.len) :
    ∃ t, Path s.nexts (s.heads.get i) (chainFrom s.nexts (s.nexts.len + 1) (s.heads.get i)) t ∧
      ∀ e, e ∈ chainFrom s.nexts (s.nexts.len + 1) (s.heads.get i) ↔ e ∈ a.live ∧ hdAt s e = i := by
  obtain ⟨l, t, hp, _, hm⟩ := h.chained i h0 h1
  have : chainFrom s.nexts (s.nexts.len + 1) (s.heads.get i) = l :=
    chainFrom_path _ _ _ _ _ hp (by have := hp.length_le; omega)
  rw [this]
  exact ⟨t, hp, hm⟩

theorem orderFrom_spec (h : Inv tight s a F) : ∀ (n : Nat) (i : Int), 0 ≤ i →
    i + n = s.heads.len → (orderFrom s n i).Nodup ∧
      ∀ e, e ∈ orderFrom s n i ↔ e ∈ a.live ∧ i ≤ hdAt s e
  | 0, i, _, h1 => by
    refine ⟨List.nodup_nil, ?_⟩
    intro e
    constructor
    · intro hh; simp [orderFrom] at hh
    · rintro ⟨_, hh⟩
      have := (h.hd_range (s.keys.get e)).2
      have : hdAt s e < s.heads.len := this
      omega
  | n + 1, i, h0, h1 => by
    obtain ⟨hn, hm⟩ := orderFrom_spec h n (i + 1) (by omega) (by omega)
    obtain ⟨t, hp, hm'⟩ := chain_at h h0 (by omega)
    refine ⟨?_, ?_⟩
    · unfold orderFrom
      rw [List.nodup_append]
      refine ⟨hp.nodup, hn, ?_⟩
      rintro x hx y hy rfl
      have h1 := ((hm' x).1 hx).2
      have h2 := ((hm x).1 hy).2
      omega
    · intro e
      unfold orderFrom
      rw [List.mem_append, hm', hm]
      constructor
      · rintro (⟨g1, g2⟩ | ⟨g1, g2⟩)
        · exact ⟨g1, by omega⟩
        · exact ⟨g1, by omega⟩
      · rintro ⟨g1, g2⟩
        by_cases hh : hdAt s e = i
        · exact .inl ⟨g1, hh⟩
        · exact .inr ⟨g1, by omega⟩

theorem order_perm (h : Inv tight s a F) : (order s).Perm a.live := by
  obtain ⟨hn, hm⟩ := orderFrom_spec h s.heads.len 0 (by omega) (by omega)
  rw [order, List.perm_ext_iff_of_nodup hn h.live_nodup]
  intro e
  rw [hm]
  have := (h.hd_range (s.keys.get e)).1
  exact ⟨fun hh => hh.1, fun hh => ⟨hh, this⟩⟩

theorem order_length (h : Inv tight s a F) : ((order s).length : Int) = s.size := by
  rw [(order_perm h).length_eq, h.size]
  simp [Abs.live]

/-- A callback that leaves the map alone. -/
theorem walk_read {β : Type} {f : Int → JM (Index K V) β} {g : Int → β}
    (hf : ∀ e : Int, 0 ≤ e → e < s.nexts.len → f e s = .ok (g e) s) :
    ∀ (fuel : Nat) (e : Int) (l : List Int) (t : Int), Path s.nexts e l t → l.length < fuel →
      walk f fuel e s = .ok (l.map g) s
  | 0, _, _, _, _, h => by omega
  | fuel + 1, e, [], t, hp, _ => by
    have h1 := hp.1; have h2 := hp.2
    rw [walk, if_neg (by omega)]; rfl
  | fuel + 1, e, x :: l, t, hp, hl => by
    obtain ⟨rfl, h0, h1, h2⟩ := hp
    rw [walk, if_pos h0, JM.bind_ok (rd_ok _ ⟨h0, h1⟩), JM.bind_ok (hf e h0 h1),
      JM.bind_ok (walk_read hf fuel _ l t h2 (by simpa using hl))]
    rfl

theorem scan_read {β : Type} (h : Inv tight s a F) {f : Int → JM (Index K V) β} {g : Int → β}
    (hf : ∀ e : Int, 0 ≤ e → e < s.nexts.len → f e s = .ok (g e) s) (hits0 : Int) :
    ∀ (n fuel : Nat) (i hits : Int), 0 ≤ i → i + n = s.heads.len → n < fuel →
      hits + (orderFrom s n i).length = hits0 →
      scan f hits0 fuel i hits s = .ok ((orderFrom s n i).map g) s
  | n, 0, _, _, _, _, h, _ => by omega
  | 0, fuel + 1, i, hits, h0, h1, hfu, hh => by
    rw [scan, JM.bind_ok (JM.get_apply _), if_neg (by omega)]; rfl
  | n + 1, fuel + 1, i, hits, h0, h1, hfu, hh => by
    rw [scan, JM.bind_ok (JM.get_apply _)]
    by_cases hlt : hits < hits0
    · obtain ⟨t, hp, hm⟩ := chain_at h h0 (by omega)
      have hll := hp.length_le
      rw [orderFrom] at hh ⊢
      simp only [List.length_append] at hh
      rw [if_pos ⟨by omega, hlt⟩, JM.bind_ok (rd_ok _ ⟨h0, by omega⟩),
        JM.bind_ok (walk_read hf _ _ _ t hp (by omega)),
        JM.bind_ok (scan_read h hf hits0 n fuel (i + 1) _ (by omega) (by omega) (by omega)
          (by simp only [List.length_map]; omega))]
      simp only [JM.pure_apply, List.map_append]
    · rw [if_neg (by omega)]
      have : orderFrom s (n + 1) i = [] := List.length_eq_zero_iff.1 (by omega)
      rw [this]; rfl

theorem forEach_read {β : Type} (h : Inv tight s a F) {f : Int → JM (Index K V) β} {g : Int → β}
    (hf : ∀ e : Int, 0 ≤ e → e < s.nexts.len → f e s = .ok (g e) s) :
    forEachWith f s = .ok ((order s).map g) s := by
  unfold forEachWith
  rw [JM.bind_ok (JM.get_apply _)]
  have hol := order_length h
  by_cases hz : s.size = 0
  · rw [if_pos hz]
    have : order s = [] := List.length_eq_zero_iff.1 (by omega)
    rw [this]; rfl
  · rw [if_neg hz, scan_read h hf s.size s.heads.len (s.heads.len + 1) 0 0 (by omega) (by omega)
      (by omega) (by have : ((orderFrom s s.heads.len 0).length : Int) = s.size := hol; omega)]
    rfl

theorem forEachEntry_spec (h : Inv tight s a F) : forEachEntry s = .ok (order s) s := by
  have := forEach_read (f := pure) (g := id) h (fun e _ _ => rfl)
  simpa [forEachEntry] using this

theorem forEach_spec (h : Inv tight s a F) : forEach s = .ok ((order s).map s.keys.get) s :=
  forEach_read h (fun e h0 h1 => rd_ok _ ⟨h0, by rw [klen_eq h]; exact h1⟩)

theorem forEachValue_spec (h : Inv tight s a F) :
    forEachValue s = .ok ((order s).map s.values.get) s :=
  forEach_read h (fun e h0 h1 => rd_ok _ ⟨h0, by rw [vlen_eq h]; exact h1⟩)

theorem live_keys (h : Inv tight s a F) : a.live.map s.keys.get = a.rows.map (·.key) := by
  rw [Abs.live, List.map_map]
  apply List.map_congr_left
  intro r hr
  exact (h.rowsOk r (.inl hr)).1

theorem live_vals (h : Inv tight s a F) : a.live.map s.values.get = a.rows.map (·.val) := by
  rw [Abs.live, List.map_map]
  apply List.map_congr_left
  intro r hr
  exact (h.rowsOk r (.inl hr)).2

/-! ### Callbacks that may remove the visited entry -/

/-- What such a callback may do: give the result `g s e`, and possibly take `e` out. -/
def MayRemove {β : Type} (tight : Prop) (f : Int → JM (Index K V) β) (step : Abs K V → Int → Abs K V)
    (g : Int → β) : Prop :=
  ∀ s a F e, Inv tight s a F → e ∈ a.live → ∃ s' F', f e s = .ok (g e) s' ∧
    Inv tight s' (step a e) F' ∧ Pres s s' [e] ∧
    ∀ x, x ∈ (step a e).live → x ∈ a.live

theorem walk_remove {β : Type} {f : Int → JM (Index K V) β} {step : Abs K V → Int → Abs K V}
    {g : Int → β} (hf : MayRemove tight f step g)
    (hkeep : ∀ a e x, x ∈ a.live → x ≠ e → x ∈ (step a e).live) :
    ∀ (fuel : Nat) (s : Index K V) (a : Abs K V) (F : List Int) (e : Int) (l : List Int) (t : Int),
      Inv tight s a F → Path s.nexts e l t → l.length < fuel → (∀ x ∈ l, x ∈ a.live) →
      ∃ s' F', walk f fuel e s = .ok (l.map g) s' ∧ Inv tight s' (l.foldl step a) F' ∧ Pres s s' l ∧
        (∀ x, x ∈ (l.foldl step a).live → x ∈ a.live) ∧
        (∀ x, x ∈ a.live → x ∉ l → x ∈ (l.foldl step a).live)
  | 0, _, _, _, _, _, _, _, _, h, _ => by omega
  | fuel + 1, s, a, F, e, [], t, hI, hp, _, _ => by
    have h1 := hp.1; have h2 := hp.2
    refine ⟨s, F, ?_, hI, Pres.refl _ _, fun x hx => hx, fun x hx _ => hx⟩
    rw [walk, if_neg (by omega)]; rfl
  | fuel + 1, s, a, F, e, x :: l, t, hI, hp, hl, hlv => by
    have hnd := hp.nodup
    obtain ⟨rfl, h0, h1, h2⟩ := hp
    simp only [List.nodup_cons] at hnd
    obtain ⟨s1, F1, g1, g2, g3, g4⟩ := hf s a F e hI (hlv e (by simp))
    have hp' : Path s1.nexts (s.nexts.get e) l t :=
      g3.path (by simpa using h0) h2 (fun y hy => by
        simp only [List.mem_singleton]; rintro rfl; exact hnd.1 hy)
    obtain ⟨s2, F2, k1, k2, k3, k4, k5⟩ := walk_remove hf hkeep fuel s1 (step a e) F1 _ l t g2 hp'
      (by simpa using hl) (fun y hy => hkeep a e y (hlv y (by simp [hy]))
        (by rintro rfl; exact hnd.1 hy))
    refine ⟨s2, F2, ?_, k2, g3.cons k3, fun y hy => g4 y (k4 y hy), ?_⟩
    · rw [walk, if_pos h0, JM.bind_ok (rd_ok _ ⟨h0, h1⟩), JM.bind_ok g1, JM.bind_ok k1]
      rfl
    · intro y hy hy2
      simp only [List.mem_cons, not_or] at hy2
      exact k5 y (hkeep a e y hy hy2.1) hy2.2

theorem orderFrom_pres {s s' : Index K V} {D : List Int} (hP : Pres s s' D) (hD : ∀ d ∈ D, 0 ≤ d)
    (h : Inv tight s a F) : ∀ (n : Nat) (i : Int), 0 ≤ i → i + n = s.heads.len →
      (∀ x ∈ orderFrom s n i, x ∉ D) → orderFrom s' n i = orderFrom s n i
  | 0, _, _, _, _ => rfl
  | n + 1, i, h0, h1, hd => by
    obtain ⟨t, hp, hm⟩ := chain_at h h0 (by omega)
    unfold orderFrom at hd ⊢
    have ih := orderFrom_pres hP hD h n (i + 1) (by omega) (by omega)
      (fun x hx => hd x (by simp [hx]))
    rw [ih]
    congr 1
    have hh : s'.heads.get i = s.heads.get i := by
      apply hP.2.2.1
      intro hh
      obtain ⟨l', hl', _⟩ := hp.nonneg_cons (hD _ hh)
      exact hd (s.heads.get i) (List.mem_append_left _ (by rw [hl']; simp)) hh
    have hp' := hP.path hD hp (fun y hy => hd y (List.mem_append_left _ hy))
    rw [hh]
    exact chainFrom_path _ _ _ _ _ hp' (by have := hp'.length_le; omega)

theorem scan_remove {β : Type} {f : Int → JM (Index K V) β} {step : Abs K V → Int → Abs K V}
    {g : Int → β} (hf : MayRemove tight f step g)
    (hkeep : ∀ a e x, x ∈ a.live → x ≠ e → x ∈ (step a e).live) (hits0 : Int) :
    ∀ (n fuel : Nat) (s : Index K V) (a : Abs K V) (F : List Int) (i hits : Int), Inv tight s a F →
      0 ≤ i → i + n = s.heads.len → n < fuel → hits + (orderFrom s n i).length = hits0 →
      ∃ s' F', scan f hits0 fuel i hits s = .ok ((orderFrom s n i).map g) s' ∧
        Inv tight s' ((orderFrom s n i).foldl step a) F'
  | n, 0, _, _, _, _, _, _, _, _, h, _ => by omega
  | 0, fuel + 1, s, a, F, i, hits, hI, h0, h1, hfu, hh => by
    refine ⟨s, F, ?_, hI⟩
    rw [scan, JM.bind_ok (JM.get_apply _), if_neg (by omega)]; rfl
  | n + 1, fuel + 1, s, a, F, i, hits, hI, h0, h1, hfu, hh => by
    rw [scan, JM.bind_ok (JM.get_apply _)]
    by_cases hlt : hits < hits0
    · obtain ⟨t, hp, hm⟩ := chain_at hI h0 (by omega)
      have hll := hp.length_le
      rw [orderFrom] at hh ⊢
      simp only [List.length_append] at hh
      obtain ⟨s1, F1, g1, g2, g3, _, _⟩ := walk_remove hf hkeep (s.nexts.len + 1) s a F _ _ t hI hp
        (by omega) (fun x hx => ((hm x).1 hx).1)
      have hsame : orderFrom s1 n (i + 1) = orderFrom s n (i + 1) := by
        refine orderFrom_pres g3 (fun d hd => (hp.mem_range d hd).1) hI n (i + 1) (by omega) (by omega) ?_
        intro x hx hx'
        have h1 := ((hm x).1 hx').2
        have h2 := (((orderFrom_spec hI n (i + 1) (by omega) (by omega)).2 x).1 hx).2
        omega
      obtain ⟨s2, F2, k1, k2⟩ := scan_remove hf hkeep hits0 n fuel s1 _ F1 (i + 1)
        (hits + (chainFrom s.nexts (s.nexts.len + 1) (s.heads.get i)).length) g2 (by omega)
        (by have := g3.1; omega) (by omega) (by rw [hsame]; omega)
      rw [hsame] at k1 k2
      refine ⟨s2, F2, ?_, by rw [List.foldl_append]; exact k2⟩
      rw [if_pos ⟨by omega, hlt⟩, JM.bind_ok (rd_ok _ ⟨h0, by omega⟩), JM.bind_ok g1]
      simp only [List.length_map]
      rw [JM.bind_ok k1]
      simp only [JM.pure_apply, List.map_append]
    · rw [if_neg (by omega)]
      have : orderFrom s (n + 1) i = [] := List.length_eq_zero_iff.1 (by omega)
      rw [this]
      exact ⟨s, F, rfl, hI⟩

/-- Iteration with a callback that may take out the entry it was given. -/
theorem forEach_remove {β : Type} {f : Int → JM (Index K V) β} {step : Abs K V → Int → Abs K V}
    {g : Int → β} (hf : MayRemove tight f step g)
    (hkeep : ∀ a e x, x ∈ a.live → x ≠ e → x ∈ (step a e).live) (hI : Inv tight s a F) :
    ∃ s' F', forEachWith f s = .ok ((order s).map g) s' ∧
      Inv tight s' ((order s).foldl step a) F' := by
  unfold forEachWith
  rw [JM.bind_ok (JM.get_apply _)]
  have hol := order_length hI
  by_cases hz : s.size = 0
  · rw [if_pos hz]
    have : order s = [] := List.length_eq_zero_iff.1 (by omega)
    rw [this]
    exact ⟨s, F, rfl, hI⟩
  · rw [if_neg hz]
    exact scan_remove hf hkeep s.size s.heads.len (s.heads.len + 1) s a F 0 0 hI (by omega) (by omega)
      (by omega) (by have : ((orderFrom s s.heads.len 0).length : Int) = s.size := hol; omega)

end Index
end Verif
