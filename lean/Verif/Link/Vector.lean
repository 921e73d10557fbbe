import Verif.Link.Basic
import Verif.Gen.KeyVector
import Verif.Proofs.Vector
/-! `KeyVector.ftl`: the generated code agrees with the model. -/
namespace Verif.Link.Vec
open Verif Verif.Vec
variable {α : Type}

/-- The numbers of the object fit into an `int`. -/
structure Fits (s : Vec α) : Prop where
  pos : 0 ≤ s.nextPos ∧ s.nextPos < 2 ^ 31 - 1
  size : 0 ≤ s.size ∧ s.size < 2 ^ 31 - 1

/-- One public call of the generated class. -/
def step (fuel : Nat) (ref : Bool) (d : α) : Op α → JM (Vec α) (Out α)
  | .append v => do Gen.KeyVector.append ref d v; pure .unit
  | .ensureSize n => do Gen.KeyVector.ensureSize ref d n; pure .unit
  | .valueAt i => do return .val (← Gen.KeyVector.valueAt ref d i)
  | .size => do return .int (← Gen.KeyVector.size ref d)
  | .isEmpty => do return .bool (← Gen.KeyVector.isEmpty ref d)
  | .forEach => do return .seq (← Gen.KeyVector.forEach ref d fuel pure)
  | .clear => do Gen.KeyVector.clear ref d; pure .unit

theorem append_eq (ref : Bool) (d v : α) {s : Vec α} (h : Fits s) :
    Gen.KeyVector.append ref d v s = append d v s := by
  obtain ⟨h1, h2⟩ := h
  unfold Gen.KeyVector.append append
  have e1 : i32 (s.nextPos + 1) = s.nextPos + 1 := i32_of_range (by omega)
  have e2 : i32 (s.size + 1) = s.size + 1 := i32_of_range (by omega)
  obtain ⟨r, hr, hb⟩ := ensureEntry_local (Vec α) s.values s.nextPos d
  simp only [JM.bind_apply, JM.get_apply, hr]
  rcases r with _ | a
  · rfl
  · have := (hb a rfl).1
    rw [e1] at this
    have hi : 0 ≤ s.nextPos ∧ s.nextPos < (a.len : Int) := by omega
    simp only [ofExcept_ok, JM.modify_apply, e1, wr, hi, and_self, if_true, e2]
    rfl

theorem forEach_loop (ref : Bool) (d : α) (s : Vec α) (h : Fits s) :
    ∀ (k fuel : Nat) (acc : List α) (i : Int), k < fuel → 0 ≤ i → k = (s.size - i).toNat →
      Gen.KeyVector.forEach_loop1 ref d pure fuel acc i s =
        match forEachFrom k i s with
        | .ok l t => .ok (acc ++ l) t
        | .err e t => .err e t := by
  obtain ⟨h1, h2⟩ := h
  intro k
  induction k with
  | zero =>
    intro fuel acc i hf hi hk
    obtain ⟨f, rfl⟩ : ∃ f, fuel = f + 1 := ⟨fuel - 1, by omega⟩
    have : ¬ i < s.size := by omega
    simp [Gen.KeyVector.forEach_loop1, forEachFrom, JM.bind_apply, this]
  | succ k ih =>
    intro fuel acc i hf hi hk
    obtain ⟨f, rfl⟩ : ∃ f, fuel = f + 1 := ⟨fuel - 1, by omega⟩
    have hlt : i < s.size := by omega
    have e : i32 (i + 1) = i + 1 := i32_of_range (by omega)
    unfold Gen.KeyVector.forEach_loop1 forEachFrom
    simp only [JM.bind_apply, JM.get_apply, hlt, decide_true, if_true]
    by_cases hr : 0 ≤ i ∧ i < s.values.len
    · simp only [rd_ok Vec.values hr, JM.pure_apply, e]
      rw [ih f (acc ++ [s.values.get i]) (i + 1) (by omega) (by omega) (by omega)]
      cases forEachFrom k (i + 1) s <;> simp
    · have : rd Vec.values i s = .err .indexOutOfBounds s := by
        simp only [rd]; rw [if_neg hr]
      rw [this]

/-- Every public call: generated = model, in every state whose numbers fit. -/
theorem step_eq (fuel : Nat) (ref : Bool) (d : α) {s : Vec α} (h : Fits s)
    (hf : 2 ^ 31 ≤ fuel) (o : Op α) : step fuel ref d o s = Verif.Vec.step ref d o s := by
  cases o with
  | append v => simp only [step, Verif.Vec.step, JM.bind_apply, append_eq ref d _ h]
  | ensureSize n =>
    simp only [step, Verif.Vec.step, Gen.KeyVector.ensureSize, Vec.ensureSize, JM.bind_apply]
    rfl
  | valueAt i => rfl
  | size => rfl
  | isEmpty => rfl
  | forEach =>
    have := forEach_loop ref d s h (s.size - 0).toNat fuel [] 0 (by have := h.size; omega) (by omega) rfl
    simp only [step, Verif.Vec.step, Gen.KeyVector.forEach, forEach, JM.bind_apply, this,
      JM.get_apply, Int.sub_zero]
    cases forEachFrom s.size.toNat 0 s <;> rfl
  | clear =>
    simp only [step, Verif.Vec.step, Gen.KeyVector.clear, clear, JM.bind_apply, JM.when]
    cases ref
    · rfl
    · obtain ⟨r, hr⟩ := fill_local (Vec α) s.values d 0 s.nextPos
      simp only [if_true, JM.bind_apply, JM.get_apply, hr]
      rcases r with _ | a <;> rfl

/-- The constructor. -/
theorem init_eq (ref : Bool) (d : α) (c : Int) (s : Vec α) :
    (match Gen.KeyVector.init ref d c s with | .ok _ t => .ok t | .err e _ => .error e) =
      Vec.new c d := by
  unfold Gen.KeyVector.init Vec.new
  simp only [JM.bind_apply, JM.modify_apply]
  by_cases h : c < 1
  · simp [h]
  · simp only [h, decide_false, Bool.false_eq_true, if_false, JM.pure_apply]
    rw [newArr_ok d (by omega)]

/-- Any legal history, of any length. -/
theorem history_eq (fuel : Nat) (hf : 2 ^ 31 ≤ fuel) (ref : Bool) (d : α) (c : Int) (s : Vec α)
    (hnew : Vec.new c d = .ok s) (ops : List (Op α))
    (hb : Allowed VecSpec.step VecSpec.Legal [] ops) :
    runM (step fuel ref d) s ops = runM (Verif.Vec.step ref d) s ops := by
  refine runM_congr_spec (Inv := fun s l => Inv ref d s l ∧ l.length ≤ 2 ^ 30)
    (fun s a o h g => ?_)
    (fun s l o h _ => step_eq fuel ref d ?_ hf o) ops s [] ⟨inv_new (ref := ref) hnew, by simp⟩ hb
  · have := step_spec s a o h.1 g
    refine ⟨this.1, this.2, ?_⟩
    cases o with
    | append v =>
      have g' : (a.length : Int) < 2 ^ 30 := g
      simp only [VecSpec.step, List.length_append, List.length_cons, List.length_nil]; omega
    | clear => simp [VecSpec.step]
    | valueAt i =>
      simp only [VecSpec.step]; split <;> exact h.2
    | _ => exact h.2
  · have h1 := h.1.size
    have h2 := h.1.pos
    have h3 := h.2
    constructor <;> omega

end Verif.Link.Vec

namespace Verif
open Verif.Vec
variable {α : Type}

/-- C04 for the code generated from KeyVector.ftl. -/
theorem C04_generated_vector_is_list (fuel : Nat) (hf : 2 ^ 31 ≤ fuel) (ref : Bool) (d : α) (c : Int)
    (s₀ s : Vec α) (u : Unit) (hnew : Gen.KeyVector.init ref d c s₀ = .ok u s)
    (ops : List (Op α)) (hb : Allowed VecSpec.step VecSpec.Legal [] ops) :
    (runM (Link.Vec.step fuel ref d) s ops).1 = (runS VecSpec.step [] ops).1 := by
  have h := Link.Vec.init_eq ref d c s₀
  rw [hnew] at h
  rw [Link.Vec.history_eq fuel hf ref d c s h.symm ops hb]
  exact (runM_refines (fun s a o h g => step_spec s a o h g) ops s [] (inv_new (ref := ref) h.symm) hb).1

/- Non-vacuity: the generated constructor and calls run, past the initial capacity. -/
example : ∃ s : Vec Int, Gen.KeyVector.init false 0 1 ⟨Arr.create 0 0, 7, 7⟩ = .ok () s ∧
    (runM (Link.Vec.step 50 true 0) s
      [Op.append 1, .append 2, .append 3, .valueAt 1, .forEach, .size, .clear, .isEmpty]).1 =
      [.ok .unit, .ok .unit, .ok .unit, .ok (.val 2), .ok (.seq [1, 2, 3]), .ok (.int 3),
        .ok .unit, .ok (.bool true)] := ⟨_, rfl, rfl⟩

end Verif
