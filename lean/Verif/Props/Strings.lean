import Verif.Model.Strings
import Verif.Spec.Text
import Verif.Props.Convert
import Mathlib.Data.List.Induction
/-! C87: the orders of strings. -/
namespace Verif
open Strings TextSpec Convert Cmp

theorem before_nil_cons (b : BitVec 16) (bs : JString) : Before [] (b :: bs) :=
  ⟨[], b :: bs, .inl ⟨rfl, by simp, rfl⟩⟩

theorem not_before_nil (a : JString) : ¬ Before a [] := by
  rintro ⟨p, r, ⟨rfl, h1, h2⟩ | ⟨x, y, r', h1, h2, h3⟩⟩
  · simp at h2; exact h1 h2.2
  · simp at h3

theorem before_cons_same (a : BitVec 16) (as bs : JString) : Before (a :: as) (a :: bs) ↔ Before as bs := by
  constructor
  · rintro ⟨p, r, ⟨h0, h1, h2⟩ | ⟨x, y, r', h1, h2, h3⟩⟩
    · subst h0; simp at h2; exact ⟨as, r, .inl ⟨rfl, h1, h2⟩⟩
    · cases p with
      | nil => simp at h2 h3; rw [← h2.1, ← h3.1] at h1; omega
      | cons z p => simp at h2 h3; exact ⟨p, r, .inr ⟨x, y, r', h1, h2.2, h3.2⟩⟩
  · rintro ⟨p, r, ⟨h0, h1, h2⟩ | ⟨x, y, r', h1, h2, h3⟩⟩
    · subst h0; exact ⟨a :: as, r, .inl ⟨rfl, h1, by simp [h2]⟩⟩
    · exact ⟨a :: p, r, .inr ⟨x, y, r', h1, by simp [h2], by simp [h3]⟩⟩

theorem before_cons_ne {a b : BitVec 16} (hab : a ≠ b) (as bs : JString) :
    Before (a :: as) (b :: bs) ↔ a.toNat < b.toNat := by
  constructor
  · rintro ⟨p, r, ⟨h0, h1, h2⟩ | ⟨x, y, r', h1, h2, h3⟩⟩
    · subst h0; simp at h2; exact absurd h2.1.symm hab
    · cases p with
      | nil => simp at h2 h3; rw [h2.1, h3.1]; exact h1
      | cons z p => simp at h2 h3; exact absurd (h2.1.trans h3.1.symm) hab
  · intro h; exact ⟨[], as, .inr ⟨a, b, bs, h, rfl, rfl⟩⟩

theorem compareTo_says (a b : JString) : Says (compareTo a b) (Before a b) (Before b a) (a = b) := by
  induction a generalizing b with
  | nil =>
    cases b with
    | nil => simp [Says, compareTo, not_before_nil]
    | cons b bs =>
      have h1 := before_nil_cons b bs
      have h2 := not_before_nil (b :: bs)
      refine ⟨⟨fun _ => h1, fun _ => ?_⟩, ⟨fun h => ?_, fun h => absurd h h2⟩, ⟨fun h => ?_, fun h => by simp at h⟩⟩ <;>
        simp only [compareTo] at * <;> omega
  | cons a as ih =>
    cases b with
    | nil =>
      have h1 := before_nil_cons a as
      have h2 := not_before_nil (a :: as)
      refine ⟨⟨fun h => ?_, fun h => absurd h h2⟩, ⟨fun _ => h1, fun _ => ?_⟩, ⟨fun h => ?_, fun h => by simp at h⟩⟩ <;>
        simp only [compareTo] at * <;> omega
    | cons b bs =>
      by_cases hab : a = b
      · subst hab
        have := ih bs
        simp only [compareTo, if_true]
        unfold Says at *
        rw [before_cons_same, before_cons_same]
        simpa using this
      · have hne : a.toNat ≠ b.toNat := fun h => hab (BitVec.eq_of_toNat_eq h)
        simp only [compareTo, hab, if_false]
        unfold Says
        rw [before_cons_ne hab, before_cons_ne (Ne.symm hab)]
        refine ⟨by omega, by omega, ⟨fun h => by omega, fun h => ?_⟩⟩
        simp at h; exact absurd h.1 hab

theorem compareToIgnoreCase_eq (upper lower : BitVec 16 → BitVec 16) (a b : JString) :
    compareToIgnoreCase upper lower a b = compareTo (folded upper lower a) (folded upper lower b) := by
  induction a generalizing b with
  | nil => cases b <;> simp [compareToIgnoreCase, compareTo, folded]
  | cons a as ih =>
    cases b with
    | nil => simp [compareToIgnoreCase, compareTo, folded]
    | cons b bs =>
      have ih' := ih bs
      simp only [folded, List.map_cons, compareToIgnoreCase, compareTo] at *
      by_cases h1 : a = b
      · subst h1; simp [ih']
      · by_cases h2 : upper a = upper b
        · simp [h1, h2, ih']
        · by_cases h3 : lower (upper a) = lower (upper b)
          · simp [h1, h2, h3, ih']
          · simp [h1, h2, h3]

/-- **C87** Dictionary order is a strict total order. -/
theorem C87_dictionary :
    (∀ a, ¬ Before a a) ∧ (∀ a b c, Before a b → Before b c → Before a c) ∧
    (∀ a b, Before a b ∨ a = b ∨ Before b a) := by
  refine ⟨fun a h => ?_, ?_, fun a b => ?_⟩
  · have := compareTo_says a a
    have h0 := this.2.2.2 rfl
    have h1 := this.1.2 h
    omega
  · intro a
    induction a with
    | nil =>
      intro b c h1 h2
      cases c with
      | nil => exact absurd h2 (not_before_nil _)
      | cons c cs => exact before_nil_cons _ _
    | cons a as ih =>
      intro b c h1 h2
      cases b with
      | nil => exact absurd h1 (not_before_nil _)
      | cons b bs =>
        cases c with
        | nil => exact absurd h2 (not_before_nil _)
        | cons c cs =>
          by_cases hab : a = b
          · subst hab
            by_cases hac : a = c
            · subst hac
              rw [before_cons_same] at *
              exact ih _ _ h1 h2
            · rw [before_cons_ne hac] at *; exact h2
          · by_cases hbc : b = c
            · subst hbc; rw [before_cons_ne hab] at *; exact h1
            · rw [before_cons_ne hab] at h1
              rw [before_cons_ne hbc] at h2
              have hac : a ≠ c := by rintro rfl; omega
              rw [before_cons_ne hac]; omega
  · have := compareTo_says a b
    rcases lt_trichotomy (compareTo a b) 0 with h | h | h
    · exact .inl (this.1.1 h)
    · exact .inr (.inl (this.2.2.1 h))
    · exact .inr (.inr (this.2.1.1 h))

/-- **C87** On strings that are not null (`x` and `y` may be the same reference or not) the four comparators are
dictionary order and its reverse, of the texts as they are or case-folded. -/
theorem C87_orders (upper lower : BitVec 16 → BitVec 16) (h : Nat → JString) (x y : Nat) :
    (∃ c, comparatorFor upper lower h .ascending (some x) (some y) = .ok c ∧
      Says c (Before (h x) (h y)) (Before (h y) (h x)) (h x = h y)) ∧
    (∃ c, comparatorFor upper lower h .descending (some x) (some y) = .ok c ∧
      Says c (Before (h y) (h x)) (Before (h x) (h y)) (h x = h y)) ∧
    (∃ c, comparatorFor upper lower h .ascendingAbsolute (some x) (some y) = .ok c ∧
      Says c (Before (folded upper lower (h x)) (folded upper lower (h y)))
        (Before (folded upper lower (h y)) (folded upper lower (h x)))
        (folded upper lower (h x) = folded upper lower (h y))) ∧
    (∃ c, comparatorFor upper lower h .descendingAbsolute (some x) (some y) = .ok c ∧
      Says c (Before (folded upper lower (h y)) (folded upper lower (h x)))
        (Before (folded upper lower (h x)) (folded upper lower (h y)))
        (folded upper lower (h x) = folded upper lower (h y))) := by
  have key : ∀ (cmp : JString → JString → Int) (f : JString → JString)
      (_ : ∀ a b, cmp a b = compareTo (f a) (f b)) (x y : Nat),
      ∃ c, nullableCompare h cmp (some x) (some y) = .ok c ∧
        Says c (Before (f (h x)) (f (h y))) (Before (f (h y)) (f (h x))) (f (h x) = f (h y)) := by
    intro cmp f hc x y
    by_cases hxy : x = y
    · subst hxy
      refine ⟨0, by simp [nullableCompare], ?_⟩
      have := C87_dictionary.1 (f (h x))
      simp [Says, this]
    · refine ⟨cmp (h x) (h y), by simp [nullableCompare, hxy], ?_⟩
      rw [hc]; exact compareTo_says _ _
  have flip : ∀ {c : Int} {p q r s : Prop}, Says c p q r → (r ↔ s) → Says c p q s := by
    intro c p q r s hs e; exact ⟨hs.1, hs.2.1, hs.2.2.trans e⟩
  refine ⟨key compareTo id (fun _ _ => rfl) x y, ?_, key _ _ (compareToIgnoreCase_eq upper lower) x y, ?_⟩
  · obtain ⟨c, h1, h2⟩ := key compareTo id (fun _ _ => rfl) y x
    exact ⟨c, h1, flip h2 eq_comm⟩
  · obtain ⟨c, h1, h2⟩ := key _ _ (compareToIgnoreCase_eq upper lower) y x
    exact ⟨c, h1, flip h2 eq_comm⟩

/-- **C87** The six predicates on strings that are not null. -/
theorem C87_predicates (h : Nat → JString) (x y : Nat) :
    Strings.predicateFor h .eq (some x) (some y) = .ok (decide (h x = h y)) ∧
    Strings.predicateFor h .neq (some x) (some y) = .ok (decide (h x ≠ h y)) ∧
    (∃ b, Strings.predicateFor h .lt (some x) (some y) = .ok b ∧ (b = true ↔ Before (h x) (h y))) ∧
    (∃ b, Strings.predicateFor h .lte (some x) (some y) = .ok b ∧ (b = true ↔ Before (h x) (h y) ∨ h x = h y)) ∧
    (∃ b, Strings.predicateFor h .gt (some x) (some y) = .ok b ∧ (b = true ↔ Before (h y) (h x))) ∧
    (∃ b, Strings.predicateFor h .gte (some x) (some y) = .ok b ∧ (b = true ↔ Before (h y) (h x) ∨ h x = h y)) := by
  have hs := compareTo_says (h x) (h y)
  obtain ⟨p1, p2, p3, p4, p5, p6⟩ := (C81_string_predicates_partial h compareTo (· == ·)
    (fun a b => by rw [beq_iff_eq, (compareTo_says a b).2.2]) (fun a => (compareTo_says a a).2.2.2 rfl)).1 x y
  obtain ⟨s1, s2, s3⟩ := hs
  refine ⟨?_, ?_, ⟨_, p3, by rw [decide_eq_true_eq, s1]⟩, ⟨_, p4, ?_⟩, ⟨_, p5, by rw [decide_eq_true_eq, s2]⟩, ⟨_, p6, ?_⟩⟩
  · rw [Strings.predicateFor, p1]; simp [s3]
  · rw [Strings.predicateFor, p2]; simp [s3]
  · rw [decide_eq_true_eq, ← s1, ← s3]; omega
  · rw [decide_eq_true_eq, ← s2, ← s3]; omega

/-- **C87** Two strings, null or not, are equal if they have the same text; equal strings have equal hashes; the hash
of null is 0 and the hash of a text is the polynomial in 31 of its characters, modulo 2^32. -/
theorem C87_equality_and_hash (a b : Option JString) :
    (stringEq a b = true ↔ a = b) ∧ (stringEq a b = true → stringHash a = stringHash b) ∧
    stringHash none = 0 ∧
    (∀ s : JString, (stringHash (some s)).toNat =
      ((List.range s.length).map fun i => (s.getD i 0).toNat * 31 ^ (s.length - 1 - i)).sum % 2 ^ 32) := by
  have h1 : stringEq a b = true ↔ a = b := by
    cases a <;> cases b <;> simp [stringEq, KeyTypes.objectsEq]
  refine ⟨h1, fun h => by rw [h1.1 h], rfl, fun s => ?_⟩
  show (hashCode s).toNat = _
  induction s using List.reverseRecOn with
  | nil => rfl
  | append_singleton s c ih =>
    have e : hashCode (s ++ [c]) = 31#32 * hashCode s + c.setWidth 32 := by
      unfold hashCode; rw [List.foldl_append]; rfl
    have hc : (c.setWidth 32).toNat = c.toNat := by
      rw [BitVec.toNat_setWidth]; have := c.isLt; omega
    rw [e, BitVec.toNat_add, BitVec.toNat_mul, ih, hc, List.length_append, List.length_singleton, List.range_succ,
      List.map_append, List.sum_append]
    have e2 : ((List.range s.length).map fun i => ((s ++ [c]).getD i 0).toNat * 31 ^ (s.length + 1 - 1 - i)).sum =
        31 * ((List.range s.length).map fun i => (s.getD i 0).toNat * 31 ^ (s.length - 1 - i)).sum := by
      have mul_sum : ∀ (g : Nat → Nat) (l : List Nat), 31 * (l.map g).sum = (l.map fun i => 31 * g i).sum := by
        intro g l
        induction l with
        | nil => rfl
        | cons a l ih => simp only [List.map_cons, List.sum_cons, Nat.mul_add, ih]
      rw [mul_sum]
      congr 1
      apply List.map_congr_left
      intro i hi
      have hi' : i < s.length := List.mem_range.1 hi
      have : s.length + 1 - 1 - i = (s.length - 1 - i) + 1 := by omega
      rw [this, pow_succ]
      have : (s ++ [c]).getD i 0 = s.getD i 0 := by
        simp [List.getD_eq_getElem?_getD, List.getElem?_append_left hi']
      rw [this, ← Nat.mul_assoc, Nat.mul_comm]
    rw [e2]
    have e3 : (s ++ [c]).getD s.length 0 = c := by simp
    simp only [List.map_cons, List.map_nil, List.sum_cons, List.sum_nil, e3]
    have e4 : s.length + 1 - 1 - s.length = 0 := by omega
    rw [e4, pow_zero, mul_one, add_zero]
    show (31 * _ % 2 ^ 32 + _) % 2 ^ 32 = _
    rw [Nat.mul_mod, Nat.mod_mod]
    omega

/-- "B" < "a" < "ab" as texts, but "a" < "ab" < "B" if case is ignored (upper and lower case of ASCII letters); the
hash of "ab" is 97*31+98, and "Aa" and "BB" have the same hash. -/
example :
    let up : BitVec 16 → BitVec 16 := fun c => if 97#16 ≤ c ∧ c ≤ 122#16 then c - 32#16 else c
    let low : BitVec 16 → BitVec 16 := fun c => if 65#16 ≤ c ∧ c ≤ 90#16 then c + 32#16 else c
    let h : Nat → JString := fun n => [[66#16], [97#16], [97#16, 98#16]].getD n []
    comparatorFor up low h .ascending (some 0) (some 1) = .ok (-31) ∧
    comparatorFor up low h .ascending (some 1) (some 2) = .ok (-1) ∧
    comparatorFor up low h .ascendingAbsolute (some 0) (some 1) = .ok 1 ∧
    comparatorFor up low h .descendingAbsolute (some 0) (some 2) = .ok (-1) ∧
    stringHash (some (h 2)) = 3105#32 ∧
    stringHash (some [65#16, 97#16]) = stringHash (some [66#16, 66#16]) := by decide +kernel

end Verif
