import Verif.Link.Types3
import Verif.Props.Strings
/-!
The comparators, predicates, equality and hash functions of `StringType` and `GenericType`, as translated mechanically
from the Java text (Gen/Types), agree with the model.
-/
namespace Verif.Link.Types
open Verif Gen.Types Gen Cmp KeyTypes IndexSpec
open Verif.Convert (JString)
open TextSpec

variable {α : Type}

/-- `compareTo` and `compareToIgnoreCase` as mathematical functions. -/
def cmpOf (J : Jdk.Refs α) (x y : α) : Int := (J.compareTo x y).toInt
@[inherit_doc cmpOf] def cmpICOf (J : Jdk.Refs α) (x y : α) : Int := (J.compareToIgnoreCase x y).toInt

theorem nullable_eq (h : Nat → α) (cmp : α → α → BitVec 32) (a b : Option Nat) :
    (StringType.nullableCompare a b (Jdk.comparing h cmp)).map BitVec.toInt =
      nullableCompare h (fun x y => (cmp x y).toInt) a b := by
  unfold StringType.nullableCompare nullableCompare
  by_cases e : a = b
  · subst e; simp; rfl
  · cases a with
    | none => simp [e]; rfl
    | some x =>
      cases b with
      | none => simp [Jdk.comparing]; rfl
      | some y => have : x ≠ y := fun h => e (by rw [h])
                  simp [Jdk.comparing, this]; rfl

theorem nullable_generic (J : Jdk.Refs α) (a b : Option Nat) :
    GenericType.nullableCompare J a b = StringType.nullableCompare a b (Jdk.compareTo J) := rfl

theorem string_asc (J : Jdk.Refs α) (a b : Option Nat) : (StringType.Asc J a b).map BitVec.toInt = ascRef J.heap (cmpOf J) a b := by
  exact nullable_eq J.heap J.compareTo a b
theorem string_desc (J : Jdk.Refs α) (a b : Option Nat) : (StringType.Desc J a b).map BitVec.toInt = descRef J.heap (cmpOf J) a b := by
  exact nullable_eq J.heap J.compareTo b a
theorem string_ascIC (J : Jdk.Refs α) (a b : Option Nat) :
    (StringType.AscInsensitive J a b).map BitVec.toInt = ascRef J.heap (cmpICOf J) a b := by
  exact nullable_eq J.heap J.compareToIgnoreCase a b
theorem string_descIC (J : Jdk.Refs α) (a b : Option Nat) :
    (StringType.DescInsensitive J a b).map BitVec.toInt = descRef J.heap (cmpICOf J) a b := by
  exact nullable_eq J.heap J.compareToIgnoreCase b a
theorem generic_asc (J : Jdk.Refs α) (a b : Option Nat) : (GenericType.Asc J a b).map BitVec.toInt = ascRef J.heap (cmpOf J) a b := by
  exact nullable_eq J.heap J.compareTo a b
theorem generic_desc (J : Jdk.Refs α) (a b : Option Nat) : (GenericType.Desc J a b).map BitVec.toInt = descRef J.heap (cmpOf J) a b := by
  exact nullable_eq J.heap J.compareTo b a

theorem objectsEquals_eq (J : Jdk.Refs α) (a b : Option Nat) : Jdk.objectsEquals J a b = objectsEquals J.heap J.equals a b := by
  cases a <;> cases b <;> rfl

theorem map_ok {β : Type} {f : BitVec 32 → β} {m : Except Err (BitVec 32)} {c : β} (h : m.map f = .ok c) :
    ∃ v, m = .ok v ∧ f v = c := by
  cases m with
  | error e => cases h
  | ok v => exact ⟨v, rfl, by simpa [Except.map] using h⟩
theorem map_error {β : Type} {f : BitVec 32 → β} {m : Except Err (BitVec 32)} {e : Err} (h : m.map f = .error e) : m = .error e := by
  cases m with
  | error e' => simpa [Except.map] using h
  | ok v => cases h

/-- C20 for the translated Java text (partial: the second argument is not null), for all six comparators: `f` with
its arguments in the order of `Asc`. -/
theorem _root_.Verif.C20_generated_partial (J : Jdk.Refs α) (hrefl : ∀ v, J.compareTo v v = 0) (hrefl' : ∀ v, J.compareToIgnoreCase v v = 0)
    (f : Option Nat → Option Nat → Except Err (BitVec 32)) (cmp : α → α → BitVec 32)
    (hf : (f = StringType.Asc J ∧ cmp = J.compareTo) ∨ (f = (fun a b => StringType.Desc J b a) ∧ cmp = J.compareTo) ∨
      (f = StringType.AscInsensitive J ∧ cmp = J.compareToIgnoreCase) ∨
      (f = (fun a b => StringType.DescInsensitive J b a) ∧ cmp = J.compareToIgnoreCase) ∨
      (f = GenericType.Asc J ∧ cmp = J.compareTo) ∨ (f = (fun a b => GenericType.Desc J b a) ∧ cmp = J.compareTo)) (y : Nat) :
    f none (some y) = .ok 1 ∧ (∀ x, f (some x) (some y) = .ok (cmp (J.heap x) (J.heap y))) ∧ f none none = .ok 0 := by
  have key : ∀ (g : Option Nat → Option Nat → Except Err (BitVec 32)) (cmp : α → α → BitVec 32), (∀ v, cmp v v = 0) →
      (∀ a b, (g a b).map BitVec.toInt = ascRef J.heap (fun x y => (cmp x y).toInt) a b) →
      g none (some y) = .ok 1 ∧ (∀ x, g (some x) (some y) = .ok (cmp (J.heap x) (J.heap y))) ∧ g none none = .ok 0 := by
    intro g cmp hc hg
    obtain ⟨h1, h2, -, h3⟩ := C20_nulls_last_partial J.heap (fun x y => (cmp x y).toInt) (fun v => by rw [hc v]; rfl) y
    have lift : ∀ {m : Except Err (BitVec 32)} {c : BitVec 32}, m.map BitVec.toInt = .ok c.toInt → m = .ok c := by
      intro m c h
      obtain ⟨v, rfl, hv⟩ := map_ok h
      rw [BitVec.toInt_inj.1 hv]
    exact ⟨lift (by rw [hg, h1]; rfl), fun x => lift (by rw [hg, h2]), lift (by rw [hg, h3]; rfl)⟩
  rcases hf with ⟨rfl, rfl⟩ | ⟨rfl, rfl⟩ | ⟨rfl, rfl⟩ | ⟨rfl, rfl⟩ | ⟨rfl, rfl⟩ | ⟨rfl, rfl⟩
  · exact key _ _ hrefl (string_asc J)
  · exact key _ _ hrefl (fun a b => string_desc J b a)
  · exact key _ _ hrefl' (string_ascIC J)
  · exact key _ _ hrefl' (fun a b => string_descIC J b a)
  · exact key _ _ hrefl (generic_asc J)
  · exact key _ _ hrefl (fun a b => generic_desc J b a)

/-- C20 is false for the translated Java text too: a null second argument. -/
theorem _root_.Verif.C20_generated_refuted (J : Jdk.Refs α) (x : Nat) :
    StringType.Asc J (some x) none = .error .nullPointer ∧ StringType.Desc J none (some x) = .error .nullPointer ∧
    StringType.AscInsensitive J (some x) none = .error .nullPointer ∧
    GenericType.Asc J (some x) none = .error .nullPointer ∧ GenericType.Desc J none (some x) = .error .nullPointer :=
  ⟨rfl, rfl, rfl, rfl, rfl⟩

/-- Objects that are their own number, with the usual order, meet the hypotheses. -/
example : let J : Jdk.Refs (BitVec 8) := ⟨BitVec.ofNat 8, fun x y => x.setWidth 32 - y.setWidth 32, fun x y => x.setWidth 32 - y.setWidth 32,
      (· == ·), fun x => x.setWidth 32⟩
    (∀ v, J.compareTo v v = 0) ∧ StringType.Asc J (some 3) (some 5) = .ok (-2#32) := by
  refine ⟨fun v => BitVec.sub_self _, by decide⟩

/-- C70 for the translated Java text. -/
theorem _root_.Verif.C70_generated (J : Jdk.Refs α) (hrefl : ∀ v, J.equals v v = true) (a b : Option Nat)
    (f : Option Nat → Option Nat → Bool)
    (hf : f = StringType.EqImpl J ∨ f = GenericType.EqImpl J ∨ f = StringType.IS_EQ J ∨ f = GenericType.IS_EQ J ∨
      f = (fun a b => !StringType.IS_NEQ J a b) ∨ f = (fun a b => !GenericType.IS_NEQ J a b)) :
    f a b = true ↔ (a = none ∧ b = none) ∨ ∃ x y, a = some x ∧ b = some y ∧ J.equals (J.heap x) (J.heap y) = true := by
  have e : f a b = objectsEquals J.heap J.equals a b := by
    rcases hf with rfl | rfl | rfl | rfl | rfl | rfl
    · exact objectsEquals_eq J a b
    · exact objectsEquals_eq J a b
    · exact objectsEquals_eq J a b
    · exact objectsEquals_eq J a b
    · simp only [StringType.IS_NEQ, Bool.not_not]; exact objectsEquals_eq J a b
    · simp only [GenericType.IS_NEQ, Bool.not_not]; exact objectsEquals_eq J a b
  rw [e]; exact C70_objects_equal J.heap J.equals hrefl a b

/-- C70 for the translated Java text: `predicateFor` of `GenericType` gives equality and its negation, and refuses
every other relation. -/
theorem _root_.Verif.C70_generated_predicateFor (J : Jdk.Refs α) (hrefl : ∀ v, J.equals v v = true) :
    (∃ f, GenericType.predicateFor J .eq = .ok f ∧ ∀ a b, f a b = true ↔
      (a = none ∧ b = none) ∨ ∃ x y, a = some x ∧ b = some y ∧ J.equals (J.heap x) (J.heap y) = true) ∧
    (∃ f, GenericType.predicateFor J .neq = .ok f ∧ ∀ a b, f a b = false ↔
      (a = none ∧ b = none) ∨ ∃ x y, a = some x ∧ b = some y ∧ J.equals (J.heap x) (J.heap y) = true) ∧
    ∀ m, m ≠ .eq → m ≠ .neq → GenericType.predicateFor J m = .error .illegalState := by
  refine ⟨⟨_, rfl, fun a b => C70_generated J hrefl a b _ (.inr (.inr (.inr (.inl rfl))))⟩, ⟨_, rfl, fun a b => ?_⟩, ?_⟩
  · rw [← C70_generated J hrefl a b _ (.inr (.inr (.inr (.inr (.inr rfl)))))]; simp
  · intro m h1 h2; cases m <;> first | exact absurd rfl h1 | exact absurd rfl h2 | rfl

/-- Two equal objects, two different ones and an order asked for. -/
example : ∃ f, GenericType.predicateFor (α := Nat) ⟨fun n => n / 2, fun _ _ => 0, fun _ _ => 0, (· == ·), fun _ => 0⟩ .neq = .ok f ∧
    f (some 2) (some 3) = false ∧ f (some 1) (some 2) = true ∧ f none (some 2) = true := ⟨_, rfl, rfl, rfl, rfl⟩

theorem slt_zero (c : BitVec 32) : c.slt 0#32 = decide (c.toInt < 0) := slt_iff c 0#32
theorem zero_slt (c : BitVec 32) : (0#32).slt c = decide (0 < c.toInt) := slt_iff 0#32 c
theorem sle_zero (c : BitVec 32) : c.sle 0#32 = decide (c.toInt ≤ 0) := sle_iff c 0#32
theorem zero_sle (c : BitVec 32) : (0#32).sle c = decide (0 ≤ c.toInt) := sle_iff 0#32 c

theorem string_predicate (J : Jdk.Refs α) (m : PredicateMethod) : ∃ f, StringType.predicateFor J m = .ok f ∧
    ∀ a b, f a b = stringPredicateFor J.heap (cmpOf J) J.equals m a b := by
  have step : ∀ (g : BitVec 32 → Bool) (g' : Int → Bool) (a b : Option Nat), (∀ c, g c = g' c.toInt) →
      (do let x ← StringType.Asc J a b; pure (g x)) = (ascRef J.heap (cmpOf J) a b).map g' := by
    intro g g' a b hg
    rw [← string_asc]
    cases StringType.Asc J a b with
    | error e => rfl
    | ok v => exact congrArg Except.ok (hg v)
  cases m <;> refine ⟨_, rfl, fun a b => ?_⟩
  · exact congrArg Except.ok (objectsEquals_eq J a b)
  · simp only [StringType.IS_NEQ, objectsEquals_eq, stringPredicateFor]
  · exact step _ _ a b slt_zero
  · exact step _ _ a b sle_zero
  · exact step _ _ a b zero_slt
  · exact step _ _ a b zero_sle

/-- C81 for the translated Java text (partial as for the model: a null second operand throws). -/
theorem _root_.Verif.C81_generated_partial (J : Jdk.Refs α) (hcmp : ∀ x y, J.equals x y = true ↔ J.compareTo x y = 0)
    (hrefl : ∀ x, J.compareTo x x = 0) (m : PredicateMethod) : ∃ f, StringType.predicateFor J m = .ok f ∧
      (∀ a b : Nat, ∃ v, f (some a) (some b) = .ok v ∧ (v = true ↔ Rel m (J.compareTo (J.heap a) (J.heap b)).toInt 0)) ∧
      (∀ b : Option Nat, f none b = .ok (match m, b with
        | .eq, none => true | .lte, none => true | .gte, none => true
        | .neq, some _ => true | .gt, some _ => true | .gte, some _ => true
        | _, _ => false)) := by
  obtain ⟨f, h, e⟩ := string_predicate J m
  have hz : (0#32).toInt = 0 := by decide
  obtain ⟨p, q⟩ := C81_string_predicates_partial J.heap (cmpOf J) J.equals
    (fun x y => by rw [hcmp]; unfold cmpOf; rw [← hz, BitVec.toInt_inj]; rfl)
    (fun x => by unfold cmpOf; rw [hrefl]; rfl)
  refine ⟨f, h, fun a b => ?_, fun b => ?_⟩
  · obtain ⟨p1, p2, p3, p4, p5, p6⟩ := p a b
    rw [e]
    cases m <;> simp only [p1, p2, p3, p4, p5, p6] <;> refine ⟨_, rfl, ?_⟩ <;> rw [decide_eq_true_eq] <;> rfl
  · rw [e]; exact q m b

/-! ### strings as texts -/

/-- The references of `J` are strings: their methods are those of the JDK (for texts shorter than `2 ^ 31`, which all
Java strings are), with `upper` and `lower` for `Character.toUpperCase` and `toLowerCase`. -/
structure AreStrings (upper lower : BitVec 16 → BitVec 16) (J : Jdk.Refs JString) : Prop where
  compareTo : ∀ x y, (J.compareTo (J.heap x) (J.heap y)).toInt = Strings.compareTo (J.heap x) (J.heap y)
  compareToIgnoreCase : ∀ x y,
    (J.compareToIgnoreCase (J.heap x) (J.heap y)).toInt = Strings.compareToIgnoreCase upper lower (J.heap x) (J.heap y)
  equals : ∀ a b, J.equals a b = (a == b)
  hashCode : ∀ a, J.hashCode a = Strings.hashCode a

theorem nullable_congr {h : Nat → α} {c c' : α → α → Int} (hc : ∀ x y, c (h x) (h y) = c' (h x) (h y)) (a b : Option Nat) :
    nullableCompare h c a b = nullableCompare h c' a b := by
  unfold nullableCompare
  cases a <;> cases b <;> simp [hc]

/-- C87 for the translated Java text: the four comparators of strings that are not null are dictionary order and its
reverse, of the texts as they are or case-folded. -/
theorem _root_.Verif.C87_generated_orders {upper lower : BitVec 16 → BitVec 16} {J : Jdk.Refs JString} (hJ : AreStrings upper lower J)
    (m : CompareMethod) (x y : Nat) : ∃ f c, StringType.comparatorFor J m = .ok f ∧ f (some x) (some y) = .ok c ∧
      (match m with
        | .ascending => Says c.toInt (Before (J.heap x) (J.heap y)) (Before (J.heap y) (J.heap x)) (J.heap x = J.heap y)
        | .descending => Says c.toInt (Before (J.heap y) (J.heap x)) (Before (J.heap x) (J.heap y)) (J.heap x = J.heap y)
        | .ascendingAbsolute => Says c.toInt (Before (folded upper lower (J.heap x)) (folded upper lower (J.heap y)))
            (Before (folded upper lower (J.heap y)) (folded upper lower (J.heap x)))
            (folded upper lower (J.heap x) = folded upper lower (J.heap y))
        | .descendingAbsolute => Says c.toInt (Before (folded upper lower (J.heap y)) (folded upper lower (J.heap x)))
            (Before (folded upper lower (J.heap x)) (folded upper lower (J.heap y)))
            (folded upper lower (J.heap x) = folded upper lower (J.heap y))) := by
  obtain ⟨⟨c1, a1, b1⟩, ⟨c2, a2, b2⟩, ⟨c3, a3, b3⟩, ⟨c4, a4, b4⟩⟩ := C87_orders upper lower J.heap x y
  have n1 := string_asc J (some x) (some y)
  have n2 := string_desc J (some x) (some y)
  have n3 := string_ascIC J (some x) (some y)
  have n4 := string_descIC J (some x) (some y)
  unfold ascRef at n1 n3
  unfold descRef at n2 n4
  rw [nullable_congr (c' := Strings.compareTo) hJ.compareTo] at n1 n2
  rw [nullable_congr (c' := Strings.compareToIgnoreCase upper lower) hJ.compareToIgnoreCase] at n3 n4
  cases m
  · obtain ⟨v, hv, rfl⟩ := map_ok (n1.trans a1); exact ⟨_, v, rfl, hv, b1⟩
  · obtain ⟨v, hv, rfl⟩ := map_ok (n2.trans a2); exact ⟨_, v, rfl, hv, b2⟩
  · obtain ⟨v, hv, rfl⟩ := map_ok (n3.trans a3); exact ⟨_, v, rfl, hv, b3⟩
  · obtain ⟨v, hv, rfl⟩ := map_ok (n4.trans a4); exact ⟨_, v, rfl, hv, b4⟩

/-- C87 for the translated Java text: equality and hash of strings, null or not. -/
theorem _root_.Verif.C87_generated_equality_and_hash {upper lower : BitVec 16 → BitVec 16} {J : Jdk.Refs JString}
    (hJ : AreStrings upper lower J) (a b : Option Nat) :
    (StringType.EqImpl J a b = true ↔ a.map J.heap = b.map J.heap) ∧
    StringType.HashImpl J a = .ok (Strings.stringHash (a.map J.heap)) := by
  constructor
  · rw [C70_generated J (fun v => by rw [hJ.equals]; simp) a b _ (.inl rfl)]
    cases a <;> cases b <;> simp [hJ.equals]
  · cases a with
    | none => rfl
    | some x =>
      show Except.ok (J.hashCode (J.heap x)) = _
      rw [hJ.hashCode]; rfl

/-- Two strings, by the JDK's methods, meet the hypothesis. -/
example : AreStrings id id ⟨fun n => if n = 0 then [97#16, 98#16] else [97#16],
    fun a b => BitVec.ofInt 32 (Strings.compareTo a b), fun a b => BitVec.ofInt 32 (Strings.compareToIgnoreCase id id a b),
    (· == ·), Strings.hashCode⟩ := by
  refine ⟨fun x y => ?_, fun x y => ?_, fun _ _ => rfl, fun _ => rfl⟩ <;>
    by_cases hx : x = 0 <;> by_cases hy : y = 0 <;> simp only [hx, hy, if_true, if_false] <;> decide

/-- C42 for the translated Java text: the equality and hash functions of `GenericType` (and, with the same text, of
`StringType`) fit together for objects that respect the contract of `Object.equals` and `Object.hashCode`.  The hash
never throws. -/
theorem _root_.Verif.C42_generated_objects_coherent (J : Jdk.Refs α) (hrefl : ∀ a, J.equals a a = true)
    (hsymm : ∀ a b, J.equals a b = true → J.equals b a = true)
    (htrans : ∀ a b c, J.equals a b = true → J.equals b c = true → J.equals a c = true)
    (hhash : ∀ a b, J.equals a b = true → J.hashCode a = J.hashCode b) :
    ∃ h : Option Nat → BitVec 32, (∀ a, GenericType.HashImpl J a = .ok (h a) ∧ StringType.HashImpl J a = .ok (h a)) ∧
      Coherent h (GenericType.EqImpl J) ∧ Coherent h (StringType.EqImpl J) := by
  have hc := C42_objects_coherent (α := Nat) (same := (· == ·)) (equals := fun x y => J.equals (J.heap x) (J.heap y))
    (hashCode := fun x => J.hashCode (J.heap x)) (fun a b => by simp) (fun a => hrefl _) (fun a b => hsymm _ _)
    (fun a b c => htrans _ _ _) (fun a b => hhash _ _)
  have e : GenericType.EqImpl J = objectsEq (· == ·) (fun x y => J.equals (J.heap x) (J.heap y)) := by
    funext a b; cases a <;> cases b <;> rfl
  refine ⟨objectsHash fun x => J.hashCode (J.heap x), fun a => ?_, by rw [e]; exact hc, ?_⟩
  · cases a <;> exact ⟨rfl, rfl⟩
  · show Coherent _ (GenericType.EqImpl J); rw [e]; exact hc

end Verif.Link.Types
