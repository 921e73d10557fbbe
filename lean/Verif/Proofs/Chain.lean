import Verif.Java
import Mathlib.Data.List.Nodup
import Mathlib.Data.List.Perm.Subperm
import Mathlib.Tactic.Tauto
/-! Linked chains stored in an `int[]` (proof device). -/
namespace Verif

/-- Following `a` from `x` passes exactly through the cells `l` and then reaches the negative `t`. -/
def Path (a : Arr Int) : Int → List Int → Int → Prop
  | x, [], t => x = t ∧ t < 0
  | x, e :: l, t => x = e ∧ 0 ≤ e ∧ e < a.len ∧ Path a (a.get e) l t

namespace Path
variable {a b : Arr Int} {x t t' : Int} {l l' : List Int}

theorem neg (h : x < 0) : Path a x [] x := ⟨rfl, h⟩

theorem term_neg : ∀ {x : Int} {l : List Int}, Path a x l t → t < 0
  | _, [], h => h.2
  | _, _ :: _, h => term_neg h.2.2.2

theorem mem_range : ∀ {x : Int} {l : List Int}, Path a x l t → ∀ e ∈ l, 0 ≤ e ∧ e < a.len
  | _, [], _, e, he => by simp at he
  | _, y :: l, h, e, he => by
    rcases List.mem_cons.1 he with rfl | he
    · exact ⟨h.2.1, h.2.2.1⟩
    · exact mem_range h.2.2.2 e he

theorem unique : ∀ {x : Int} {l l' : List Int}, Path a x l t → Path a x l' t' → l = l' ∧ t = t'
  | x, [], [], h, h' => ⟨rfl, h.1.symm.trans h'.1⟩
  | x, [], e :: l', h, h' => by
    have := h.2; have := h.1; have := h'.1; have := h'.2.1; omega
  | x, e :: l, [], h, h' => by
    have := h'.2; have := h'.1; have := h.1; have := h.2.1; omega
  | x, e :: l, e' :: l', h, h' => by
    have e1 : e = e' := h.1.symm.trans h'.1
    subst e1
    obtain ⟨r1, r2⟩ := unique h.2.2.2 h'.2.2.2
    exact ⟨by rw [r1], r2⟩

/-- Splitting a path. -/
theorem append : ∀ {x : Int} {l1 l2 : List Int}, Path a x (l1 ++ l2) t →
    ∃ y, Path a y l2 t
  | x, [], _, h => ⟨x, h⟩
  | _, _ :: _, _, h => append h.2.2.2

theorem suffix : ∀ {x : Int} {l : List Int} {e : Int}, Path a x l t → e ∈ l →
    ∃ l1 l2, l = l1 ++ e :: l2 ∧ Path a e (e :: l2) t
  | _, y :: l, e, h, he => by
    rcases List.mem_cons.1 he with rfl | he
    · exact ⟨[], l, rfl, rfl, h.2.1, h.2.2.1, h.2.2.2⟩
    · obtain ⟨l1, l2, e1, h2⟩ := suffix h.2.2.2 he
      exact ⟨y :: l1, l2, by rw [e1]; rfl, h2⟩

theorem nodup : ∀ {x : Int} {l : List Int}, Path a x l t → l.Nodup
  | _, [], _ => .nil
  | x, e :: l, h => by
    refine List.nodup_cons.2 ⟨?_, nodup h.2.2.2⟩
    intro hm
    obtain ⟨l1, l2, e1, h2⟩ := suffix h.2.2.2 hm
    have h0 : Path a e (e :: l) t := ⟨rfl, h.2.1, h.2.2.1, h.2.2.2⟩
    have := (unique h0 h2).1
    simp only [List.cons.injEq, true_and] at this
    have hl := congrArg List.length e1
    rw [this] at hl
    simp at hl
    omega

theorem length_le (h : Path a x l t) : l.length ≤ a.len := by
  have h1 := h.nodup
  have h2 : (l.map Int.toNat).Nodup := by
    refine List.Nodup.map_on ?_ h1
    intro p hp q hq e
    have := h.mem_range p hp; have := h.mem_range q hq; omega
  have h3 : (l.map Int.toNat) ⊆ List.range a.len := by
    intro p hp
    obtain ⟨q, hq, rfl⟩ := List.mem_map.1 hp
    have := h.mem_range q hq
    exact List.mem_range.2 (by omega)
  have := (List.Nodup.subperm h2 h3).length_le
  simpa using this

theorem congr (hlen : a.len ≤ b.len) : ∀ {x : Int} {l : List Int}, Path a x l t →
    (∀ e ∈ l, b.get e = a.get e) → Path b x l t
  | _, [], h, _ => h
  | _, e :: l, h, hg => by
    refine ⟨h.1, h.2.1, by have := h.2.2.1; omega, ?_⟩
    rw [hg e (by simp)]
    exact congr hlen h.2.2.2 fun e he => hg e (by simp [he])

theorem set_notin {y v : Int} (h : Path a x l t) (hy : y ∉ l) : Path (a.set y v) x l t :=
  h.congr (by simp) fun e he => Arr.get_set_ne _ _ (fun hh => hy (hh ▸ he))

theorem nil_iff : Path a x [] t ↔ x = t ∧ t < 0 := Iff.rfl

theorem cons_iff {e : Int} : Path a x (e :: l) t ↔
    x = e ∧ 0 ≤ e ∧ e < a.len ∧ Path a (a.get e) l t := Iff.rfl

theorem neg_nil (h : Path a x l t) (hx : x < 0) : l = [] ∧ t = x := by
  cases l with
  | nil => exact ⟨rfl, h.1.symm⟩
  | cons e l => have := h.1; have := h.2.1; omega

theorem nonneg_cons (h : Path a x l t) (hx : 0 ≤ x) : ∃ l', l = x :: l' ∧ x < a.len ∧ Path a (a.get x) l' t := by
  cases l with
  | nil => have := h.1; have := h.2; omega
  | cons e l => exact ⟨l, by rw [h.1], by rw [h.1]; exact h.2.2.1, by rw [h.1]; exact h.2.2.2⟩

/-- The path up to and after an inner cell. -/
theorem split : ∀ {x : Int} {l1 l2 : List Int} {p : Int}, Path a x (l1 ++ p :: l2) t →
    0 ≤ p ∧ p < a.len ∧ Path a (a.get p) l2 t
  | _, [], _, _, h => ⟨h.2.1, h.2.2.1, h.2.2.2⟩
  | _, _ :: _, _, _, h => split h.2.2.2

/-- Redirecting the last cell of a prefix. -/
theorem relink : ∀ {x : Int} {l1 l2 l3 : List Int} {p v : Int}, Path a x (l1 ++ p :: l2) t →
    Path (a.set p v) v l3 t' → p ∉ l1 →
    Path (a.set p v) x (l1 ++ p :: l3) t'
  | x, [], l2, l3, p, v, h, h2, _ => by
    refine ⟨h.1, h.2.1, h.2.2.1, ?_⟩
    rw [Arr.get_set_self]; exact h2
  | x, e :: l1, l2, l3, p, v, h, h2, hp => by
    simp only [List.mem_cons, not_or] at hp
    refine ⟨h.1, h.2.1, h.2.2.1, ?_⟩
    rw [Arr.get_set_ne _ _ (Ne.symm hp.1)]
    exact relink h.2.2.2 h2 hp.2

end Path

/-- The walk from `e` ends, in a terminator no smaller than `-n`. -/
def Ends (a : Arr Int) (n : Nat) (e : Int) : Prop := ∃ l t, Path a e l t ∧ -(n : Int) ≤ t

theorem Ends.of_neg {a : Arr Int} {n : Nat} {e : Int} (h : e < 0) (h2 : -(n : Int) ≤ e) : Ends a n e :=
  ⟨[], e, ⟨rfl, h⟩, h2⟩

theorem Ends.cons {a : Arr Int} {n : Nat} {e : Int} (h0 : 0 ≤ e) (h1 : e < a.len)
    (h : Ends a n (a.get e)) : Ends a n e := by
  obtain ⟨l, t, hp, ht⟩ := h
  exact ⟨e :: l, t, ⟨rfl, h0, h1, hp⟩, ht⟩

theorem Ends.path {a : Arr Int} {n : Nat} {e : Int} {l t} (h : Path a e l t) (h2 : -(n : Int) ≤ t) :
    Ends a n e := ⟨l, t, h, h2⟩

/-- If the changed cells still end, everything still ends. -/
theorem Ends.update {a b : Arr Int} {n m : Nat} (hlen : a.len ≤ b.len) (hnm : n ≤ m)
    (hch : ∀ e : Int, 0 ≤ e → e < a.len → b.get e ≠ a.get e → Ends b m e) :
    ∀ {e : Int}, Ends a n e → Ends b m e := by
  rintro e ⟨l, t, hp, ht⟩
  induction l generalizing e with
  | nil => exact ⟨[], t, hp, by omega⟩
  | cons y l ih =>
    obtain ⟨rfl, h0, h1, h2⟩ := hp
    by_cases hg : b.get e = a.get e
    · exact Ends.cons h0 (by omega) (hg ▸ ih h2)
    · exact hch e h0 h1 hg

theorem Ends.set {a : Arr Int} {n m : Nat} (hnm : n ≤ m) {x v : Int}
    (hx : Ends (a.set x v) m x) {e : Int} (h : Ends a n e) : Ends (a.set x v) m e := by
  refine Ends.update (a := a) (b := a.set x v) (by simp) hnm (fun e' _ _ hne => ?_) h
  by_cases he : e' = x
  · exact he ▸ hx
  · exact absurd (Arr.get_set_ne _ _ he) hne

/-- A hash table's chains: `hd e` is the head the entry `e` belongs to, `S` the registered entries. -/
def Chained (heads nexts : Arr Int) (hd : Int → Int) (S : List Int) : Prop :=
  ∀ h : Int, 0 ≤ h → h < heads.len → ∃ l t, Path nexts (heads.get h) l t ∧ (l ≠ [] → t = -h - 1) ∧
    ∀ e, e ∈ l ↔ (e ∈ S ∧ hd e = h)

namespace Chained
variable {heads nexts : Arr Int} {hd : Int → Int} {S : List Int}

/-- A table without entries. -/
theorem empty (h : ∀ i : Int, 0 ≤ i → i < heads.len → heads.get i < 0) : Chained heads nexts hd [] := by
  intro i h0 h1
  exact ⟨[], heads.get i, ⟨rfl, h i h0 h1⟩, by simp, by simp⟩

theorem congr {hd' : Int → Int} {S' : List Int} (h : Chained heads nexts hd S)
    (hS : ∀ e, e ∈ S' ↔ e ∈ S) (hhd : ∀ e ∈ S, hd' e = hd e) : Chained heads nexts hd' S' := by
  intro i h0 h1
  obtain ⟨l, t, hp, ht, hm⟩ := h i h0 h1
  refine ⟨l, t, hp, ht, fun e => ?_⟩
  rw [hm, hS]
  constructor
  · rintro ⟨a, b⟩; exact ⟨a, by rw [hhd e a]; exact b⟩
  · rintro ⟨a, b⟩; exact ⟨a, by rw [← hhd e a]; exact b⟩

/-- Changing `nexts` outside the registered entries. -/
theorem set_notin {x v : Int} (h : Chained heads nexts hd S) (hx : x ∉ S) :
    Chained heads (nexts.set x v) hd S := by
  intro i h0 h1
  obtain ⟨l, t, hp, ht, hm⟩ := h i h0 h1
  exact ⟨l, t, hp.set_notin (fun hh => hx ((hm x).1 hh).1), ht, hm⟩

/-- Registering a new entry in front of its chain. -/
theorem register {e i : Int} (h : Chained heads nexts hd S) (he : e ∉ S) (he0 : 0 ≤ e)
    (he1 : e < nexts.len) (hi0 : 0 ≤ i) (hi1 : i < heads.len) (hhd : hd e = i) :
    Chained (heads.set i e)
      (nexts.set e (if heads.get i ≥ 0 then heads.get i else -i - 1)) hd (e :: S) := by
  intro j h0 h1
  simp only [Arr.len_set] at h1
  obtain ⟨l, t, hp, ht, hm⟩ := h j h0 h1
  have hnl : e ∉ l := fun hh => he ((hm e).1 hh).1
  by_cases hj : j = i
  · subst hj
    rw [Arr.get_set_self]
    by_cases hh : heads.get j ≥ 0
    · obtain ⟨l', hl', _, _⟩ := hp.nonneg_cons hh
      rw [if_pos hh]
      have ht' : t = -j - 1 := ht (by rw [hl']; simp)
      refine ⟨e :: l, -j - 1, ⟨rfl, he0, by simpa using he1, ?_⟩, by simp, ?_⟩
      · rw [Arr.get_set_self, ← ht']; exact hp.set_notin hnl
      · intro x
        simp only [List.mem_cons, hm]
        constructor
        · rintro (rfl | ⟨a, b⟩)
          · exact ⟨.inl rfl, hhd⟩
          · exact ⟨.inr a, b⟩
        · rintro ⟨rfl | a, b⟩
          · exact .inl rfl
          · exact .inr ⟨a, b⟩
    · obtain ⟨hl, ht⟩ := hp.neg_nil (by omega)
      subst hl
      rw [if_neg hh]
      refine ⟨[e], -j - 1, ⟨rfl, he0, by simpa using he1, ?_⟩, by simp, ?_⟩
      · rw [Arr.get_set_self]; exact ⟨rfl, by omega⟩
      · intro x
        simp only [List.mem_cons, List.not_mem_nil, or_false]
        constructor
        · rintro rfl; exact ⟨.inl rfl, hhd⟩
        · rintro ⟨rfl | a, b⟩
          · rfl
          · exact absurd ((hm x).2 ⟨a, b⟩) (by simp)
  · rw [Arr.get_set_ne _ _ hj]
    refine ⟨l, t, hp.set_notin hnl, ht, ?_⟩
    intro x
    rw [hm]
    constructor
    · rintro ⟨a, b⟩; exact ⟨List.mem_cons_of_mem _ a, b⟩
    · rintro ⟨a, b⟩
      rcases List.mem_cons.1 a with rfl | a
      · exact absurd (b.symm.trans hhd) hj
      · exact ⟨a, b⟩

/-- Unlinking the first entry of a chain. -/
theorem unlink_first {i e : Int} {l2 : List Int} {t : Int} (h : Chained heads nexts hd S)
    (hi0 : 0 ≤ i) (hi1 : i < heads.len) (hp : Path nexts (heads.get i) (e :: l2) t) :
    Chained (heads.set i (nexts.get e)) nexts hd (S.filter (· ≠ e)) := by
  intro j h0 h1
  simp only [Arr.len_set] at h1
  obtain ⟨l, t', hp', ht, hm⟩ := h j h0 h1
  by_cases hj : j = i
  · subst hj
    obtain ⟨rfl, rfl⟩ := hp.unique hp'
    have hnd := hp.nodup
    rw [Arr.get_set_self]
    refine ⟨l2, t, hp.2.2.2, fun _ => ht (by simp), ?_⟩
    intro x
    have := hm x
    simp only [List.mem_cons] at this
    simp only [List.mem_filter, decide_eq_true_eq]
    constructor
    · intro hx
      have h1 := this.1 (.inr hx)
      refine ⟨⟨h1.1, ?_⟩, h1.2⟩
      intro hxe
      exact (List.nodup_cons.1 hnd).1 (hxe ▸ hx)
    · rintro ⟨⟨h1, h2⟩, h3⟩
      rcases this.2 ⟨h1, h3⟩ with hx | hx
      · exact absurd hx h2
      · exact hx
  · rw [Arr.get_set_ne _ _ hj]
    refine ⟨l, t', hp', ht, ?_⟩
    intro x
    rw [hm]
    simp only [List.mem_filter, decide_eq_true_eq]
    have he : hd e = i := by
      obtain ⟨l', t'', hp'', _, hm''⟩ := h i hi0 hi1
      obtain ⟨rfl, _⟩ := hp.unique hp''
      exact ((hm'' e).1 (by simp)).2
    constructor
    · rintro ⟨h1, h2⟩
      refine ⟨⟨h1, ?_⟩, h2⟩
      rintro rfl; exact hj (h2.symm.trans he)
    · rintro ⟨⟨h1, _⟩, h3⟩; exact ⟨h1, h3⟩

/-- Unlinking an inner entry of a chain. -/
theorem unlink_inner {i e p : Int} {l1 l2 : List Int} {t : Int} (h : Chained heads nexts hd S)
    (hi0 : 0 ≤ i) (hi1 : i < heads.len) (hp : Path nexts (heads.get i) (l1 ++ p :: e :: l2) t) :
    Chained heads (nexts.set p (nexts.get e)) hd (S.filter (· ≠ e)) := by
  have hnd := hp.nodup
  have he : p ∉ l1 ∧ p ∉ l2 ∧ e ∉ l1 ∧ e ∉ l2 ∧ e ≠ p := by
    have h1 := hnd
    rw [List.nodup_append] at h1
    obtain ⟨_, h2, h3⟩ := h1
    simp only [List.nodup_cons, List.mem_cons, not_or] at h2
    refine ⟨fun hh => h3 p hh p (by simp) rfl, h2.1.2, fun hh => h3 e hh e (by simp) rfl, h2.2.1,
      fun hh => h2.1.1 hh.symm⟩
  intro j h0 h1
  obtain ⟨l, t', hp', ht, hm⟩ := h j h0 h1
  have hhd : ∀ x ∈ l1 ++ p :: e :: l2, hd x = i := by
    intro x hx
    obtain ⟨l', t'', hp'', _, hm''⟩ := h i hi0 hi1
    obtain ⟨rfl, _⟩ := hp.unique hp''
    exact ((hm'' x).1 hx).2
  by_cases hj : j = i
  · subst hj
    obtain ⟨rfl, rfl⟩ := hp.unique hp'
    obtain ⟨_, _, hp2⟩ := hp.split
    obtain ⟨_, _, _, hp3⟩ := hp2
    refine ⟨l1 ++ p :: l2, t, hp.relink (hp3.set_notin he.2.1) he.1, fun _ => ht (by simp), ?_⟩
    intro x
    have := hm x
    simp only [List.mem_append, List.mem_cons] at this
    simp only [List.mem_append, List.mem_cons, List.mem_filter, decide_eq_true_eq]
    constructor
    · intro hx
      have h1 := this.1 (by tauto)
      refine ⟨⟨h1.1, ?_⟩, h1.2⟩
      rintro rfl
      tauto
    · rintro ⟨⟨h1, h2⟩, h3⟩
      have := this.2 ⟨h1, h3⟩
      tauto
  · refine ⟨l, t', hp'.set_notin ?_, ht, ?_⟩
    · intro hx
      exact hj (((hm p).1 hx).2.symm.trans (hhd p (by simp)))
    · intro x
      rw [hm]
      simp only [List.mem_filter, decide_eq_true_eq]
      constructor
      · rintro ⟨h1, h2⟩
        refine ⟨⟨h1, ?_⟩, h2⟩
        rintro rfl; exact hj (h2.symm.trans (hhd x (by simp)))
      · rintro ⟨⟨h1, _⟩, h3⟩; exact ⟨h1, h3⟩

/-- The chain a registered entry is in. -/
theorem chain_of {e : Int} (h : Chained heads nexts hd S) (he : e ∈ S)
    (h0 : 0 ≤ hd e) (h1 : hd e < heads.len) :
    ∃ l t, Path nexts (heads.get (hd e)) l t ∧ t = -(hd e) - 1 ∧ e ∈ l := by
  obtain ⟨l, t, hp, ht, hm⟩ := h _ h0 h1
  have : e ∈ l := (hm e).2 ⟨he, rfl⟩
  exact ⟨l, t, hp, ht (List.ne_nil_of_mem this), this⟩

end Chained
end Verif
