import Verif.Spec.Sort
import Verif.Proofs.Sat
import Mathlib.Data.List.Nodup
set_option linter.unusedSectionVars false
/-! The companion sort moves pairs around inside its range. -/
namespace Verif.SortProof
open Verif.CompanionSort Verif.SortSpec
variable {K V : Type}

/-- `s'` is `s` with the pairs at positions in `[lo, hi)` permuted. -/
def Moves (lo hi : Int) (s s' : Arrs K V) : Prop :=
  s'.pri.len = s.pri.len ∧ s'.sec.len = s.sec.len ∧
  ∃ f g : Int → Int, (∀ i, f (g i) = i) ∧ (∀ i, g (f i) = i) ∧ (∀ i, i < lo ∨ hi ≤ i → f i = i) ∧
    ∀ i, s'.pri.get i = s.pri.get (f i) ∧ s'.sec.get i = s.sec.get (f i)

theorem Moves.refl (lo hi : Int) (s : Arrs K V) : Moves lo hi s s :=
  ⟨rfl, rfl, id, id, fun _ => rfl, fun _ => rfl, fun _ _ => rfl, fun _ => ⟨rfl, rfl⟩⟩

theorem Moves.trans {lo hi : Int} {s t u : Arrs K V} (h : Moves lo hi s t) (h' : Moves lo hi t u) :
    Moves lo hi s u := by
  obtain ⟨h1, h2, f, g, fg, gf, hf, hs⟩ := h
  obtain ⟨h1', h2', f', g', fg', gf', hf', hs'⟩ := h'
  refine ⟨h1'.trans h1, h2'.trans h2, fun i => f (f' i), fun i => g' (g i), ?_, ?_, ?_, ?_⟩
  · intro i; simp only [fg', fg]
  · intro i; simp only [gf', gf]
  · intro i hi; simp only [hf' i hi, hf i hi]
  · intro i; exact ⟨(hs' i).1.trans (hs _).1, (hs' i).2.trans (hs _).2⟩

theorem Moves.widen {lo hi lo' hi' : Int} {s t : Arrs K V} (h : Moves lo hi s t) (h1 : lo' ≤ lo) (h2 : hi ≤ hi') :
    Moves lo' hi' s t := by
  obtain ⟨a, b, f, g, fg, gf, hf, hs⟩ := h
  exact ⟨a, b, f, g, fg, gf, fun i hi => hf i (by omega), hs⟩

/-- Positions in the range stay in the range. -/
theorem Moves.from {lo hi : Int} {s t : Arrs K V} (h : Moves lo hi s t) (i : Int) (hi' : lo ≤ i ∧ i < hi) :
    ∃ j, (lo ≤ j ∧ j < hi) ∧ t.pri.get i = s.pri.get j ∧ t.sec.get i = s.sec.get j := by
  obtain ⟨_, _, f, g, fg, gf, hf, hs⟩ := h
  refine ⟨f i, ?_, hs i⟩
  by_cases hc : lo ≤ f i ∧ f i < hi
  · exact hc
  · exfalso
    have h1 := hf (f i) (by omega)
    have h2 : f i = i := by rw [← gf (f i), h1, gf]
    omega

theorem Moves.to {lo hi : Int} {s t : Arrs K V} (h : Moves lo hi s t) (i : Int) (hi' : lo ≤ i ∧ i < hi) :
    ∃ j, (lo ≤ j ∧ j < hi) ∧ t.pri.get j = s.pri.get i ∧ t.sec.get j = s.sec.get i := by
  obtain ⟨_, _, f, g, fg, gf, hf, hs⟩ := h
  have hj := hs (g i)
  rw [fg] at hj
  refine ⟨g i, ?_, hj⟩
  by_cases hc : lo ≤ g i ∧ g i < hi
  · exact hc
  · exfalso
    have h1 := hf (g i) (by omega)
    rw [fg] at h1
    omega

theorem Moves.outside {lo hi : Int} {s t : Arrs K V} (h : Moves lo hi s t) (i : Int) (hi' : i < lo ∨ hi ≤ i) :
    t.pri.get i = s.pri.get i ∧ t.sec.get i = s.sec.get i := by
  obtain ⟨_, _, f, g, fg, gf, hf, hs⟩ := h
  rw [(hs i).1, (hs i).2, hf i hi']
  exact ⟨rfl, rfl⟩

/-- A property of all keys in the range is preserved. -/
theorem Moves.forall {lo hi : Int} {s t : Arrs K V} (h : Moves lo hi s t) {P : K → Prop}
    (hP : ∀ i, lo ≤ i ∧ i < hi → P (s.pri.get i)) : ∀ i, lo ≤ i ∧ i < hi → P (t.pri.get i) := by
  intro i hi'
  obtain ⟨j, hj, h1, _⟩ := h.from i hi'
  rw [h1]; exact hP j hj

/-- The state after `swap(pri, sec, a, b)`. -/
def swapped (s : Arrs K V) (a b : Int) : Arrs K V :=
  ⟨(s.pri.set a (s.pri.get b)).set b (s.pri.get a), (s.sec.set a (s.sec.get b)).set b (s.sec.get a)⟩

theorem swapped_pri (s : Arrs K V) (a b i : Int) :
    (swapped s a b).pri.get i = if i = b then s.pri.get a else if i = a then s.pri.get b else s.pri.get i := rfl
theorem swapped_sec (s : Arrs K V) (a b i : Int) :
    (swapped s a b).sec.get i = if i = b then s.sec.get a else if i = a then s.sec.get b else s.sec.get i := rfl

theorem swap_ok {s : Arrs K V} {lo hi a b : Int} (hs : InBoth s lo (hi - lo)) (ha : lo ≤ a ∧ a < hi) (hb : lo ≤ b ∧ b < hi) :
    swap a b s = .ok () (swapped s a b) := by
  obtain ⟨h0, h1, h2, h3⟩ := hs
  unfold swap wrPri wrSec
  rw [JM.bind_ok (rd_ok Arrs.pri (by omega)), JM.bind_ok (rd_ok Arrs.sec (by omega)),
    JM.bind_ok (rd_ok Arrs.sec (by omega)), JM.bind_ok (wr_ok _ _ (by omega)),
    JM.bind_ok (rd_ok Arrs.pri (by show _ ∧ b < (s.pri.len : Int); omega)),
    JM.bind_ok (wr_ok _ _ (by show _ ∧ a < (s.pri.len : Int); omega)),
    JM.bind_ok (wr_ok _ _ (by show _ ∧ b < ((s.pri.set a (s.pri.get b)).len : Int); rw [Arr.len_set]; omega)),
    wr_ok _ _ (by show _ ∧ b < ((s.sec.set a (s.sec.get b)).len : Int); rw [Arr.len_set]; omega)]
  rfl

theorem moves_swapped (s : Arrs K V) {lo hi a b : Int} (ha : lo ≤ a ∧ a < hi) (hb : lo ≤ b ∧ b < hi) :
    Moves lo hi s (swapped s a b) := by
  refine ⟨rfl, rfl, fun i => if i = b then a else if i = a then b else i,
    fun i => if i = b then a else if i = a then b else i, ?_, ?_, ?_, ?_⟩
  · intro i; dsimp only; split <;> split <;> (try split) <;> (try split) <;> omega
  · intro i; dsimp only; split <;> split <;> (try split) <;> (try split) <;> omega
  · intro i hi'; dsimp only; rw [if_neg (by omega), if_neg (by omega)]
  · intro i
    rw [swapped_pri, swapped_sec]
    dsimp only
    by_cases h1 : i = b
    · simp only [if_pos h1, and_self]
    · by_cases h2 : i = a
      · simp only [if_neg h1, if_pos h2, and_self]
      · simp only [if_neg h1, if_neg h2, and_self]

theorem Moves.inBoth {lo hi off len : Int} {s t : Arrs K V} (h : Moves lo hi s t) (hs : InBoth s off len) :
    InBoth t off len := by
  unfold InBoth at *
  rw [h.1, h.2.1]; exact hs

theorem InBoth.narrow {s : Arrs K V} {lo hi lo' hi' : Int} (h : InBoth s lo (hi - lo)) (h1 : lo ≤ lo') (h2 : lo' ≤ hi')
    (h3 : hi' ≤ hi) : InBoth s lo' (hi' - lo') := by
  unfold InBoth at *; omega

theorem Moves.sameOutside {off len : Int} {s t : Arrs K V} (h : Moves off (off + len) s t) : SameOutside s t off len :=
  ⟨h.1, h.2.1, fun i hi => h.outside i hi⟩

theorem Moves.perm {off len : Int} {s t : Arrs K V} (h : Moves off (off + len) s t) :
    List.Perm (pairs t off len) (pairs s off len) := by
  have hmem := h.from
  obtain ⟨_, _, f, g, fg, gf, hf, hs⟩ := h
  have hin : ∀ i, off ≤ i ∧ i < off + len → off ≤ f i ∧ f i < off + len := by
    intro i hi
    by_cases hc : off ≤ f i ∧ f i < off + len
    · exact hc
    · exfalso
      have h1 := hf (f i) (by omega)
      have h2 : f i = i := by rw [← gf (f i), h1, gf]
      omega
  have hin' : ∀ i, off ≤ i ∧ i < off + len → off ≤ g i ∧ g i < off + len := by
    intro i hi
    by_cases hc : off ≤ g i ∧ g i < off + len
    · exact hc
    · exfalso
      have h1 := hf (g i) (by omega)
      rw [fg] at h1; omega
  let F : Nat → Nat := fun i => (f (off + i) - off).toNat
  have e1 : pairs t off len = ((List.range len.toNat).map F).map
      (fun (i : Nat) => (s.pri.get (off + (i : Int)), s.sec.get (off + (i : Int)))) := by
    unfold pairs
    rw [List.map_map]
    apply List.map_congr_left
    intro i hi
    rw [List.mem_range] at hi
    have h1 := hin (off + i) (by omega)
    have h2 := hs (off + i)
    have h3 : off + ((F i : Nat) : Int) = f (off + i) := by show off + (((f (off + i) - off).toNat : Nat) : Int) = _; omega
    simp only [Function.comp, h3]
    rw [h2.1, h2.2]
  rw [e1]
  unfold pairs
  apply List.Perm.map
  have hnd : ((List.range len.toNat).map F).Nodup := by
    apply List.Nodup.map_on _ List.nodup_range
    intro x hx y hy hxy
    rw [List.mem_range] at hx hy
    have h1 := hin (off + x) (by omega)
    have h2 := hin (off + y) (by omega)
    have h3 : f (off + x) = f (off + y) := by
      have : (f (off + x) - off).toNat = (f (off + y) - off).toNat := hxy
      omega
    have h4 : g (f (off + x)) = g (f (off + y)) := by rw [h3]
    rw [gf, gf] at h4
    omega
  rw [List.perm_ext_iff_of_nodup hnd List.nodup_range]
  intro x
  rw [List.mem_map]
  constructor
  · rintro ⟨y, hy, rfl⟩
    rw [List.mem_range] at hy ⊢
    have h1 := hin (off + y) (by omega)
    show (f (off + y) - off).toNat < _
    omega
  · intro hx
    rw [List.mem_range] at hx
    have h1 := hin' (off + x) (by omega)
    refine ⟨(g (off + x) - off).toNat, by rw [List.mem_range]; omega, ?_⟩
    show (f (off + (((g (off + x) - off).toNat : Nat) : Int)) - off).toNat = x
    have h2 : off + (((g (off + x) - off).toNat : Nat) : Int) = g (off + x) := by omega
    rw [h2, fg]; omega

end Verif.SortProof
