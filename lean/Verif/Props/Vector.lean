import Verif.Proofs.Vector
/-! # Properties C04, C65: the vector -/
namespace Verif
open Vec
variable {α : Type}

/-- C04: for every initial capacity ≥ 1 and every legal history, every result is the one of the
append-only list. -/
theorem C04_vector_is_list (ref : Bool) (d : α) (c : Int) (s : Vec α)
    (hnew : Vec.new c d = .ok s) (ops : List (Op α))
    (hb : Allowed VecSpec.step VecSpec.Legal [] ops) :
    (runM (step ref d) s ops).1 = (runS VecSpec.step [] ops).1 :=
  (runM_refines (fun s a o h g => step_spec s a o h g) ops s [] (inv_new (ref := ref) hnew) hb).1

/-- C04: the constructor accepts exactly the capacities from 1 up. -/
theorem C04_new (c : Int) (d : α) :
    (1 ≤ c → ∃ s, Vec.new c d = .ok s) ∧ (c < 1 → Vec.new c d = .error .illegalArgument) := by
  unfold Vec.new
  constructor
  · intro h; rw [if_neg (by omega)]; exact ⟨_, rfl⟩
  · intro h; rw [if_pos h]

example : ∃ s : Vec Int, Vec.new 1 0 = .ok s ∧
    Allowed VecSpec.step VecSpec.Legal []
      [Op.append 7, .append 8, .ensureSize 9, .valueAt 1, .clear, .append 5, .forEach] ∧
    (runM (step false 0) s
      [Op.append 7, .append 8, .ensureSize 9, .valueAt 1, .clear, .append 5, .forEach]).1 =
      [.ok .unit, .ok .unit, .ok .unit, .ok (.val 8), .ok .unit, .ok .unit, .ok (.seq [5])] :=
  ⟨_, rfl, by simp [Allowed, VecSpec.Legal, VecSpec.step], rfl⟩

/-- C65: after any legal history on a reference-typed vector, every array cell at or beyond the
current size holds the default. -/
theorem C65_vector_no_stale_references (d : α) (c : Int) (s0 : Vec α)
    (hnew : Vec.new c d = .ok s0) (ops : List (Op α))
    (hb : Allowed VecSpec.step VecSpec.Legal [] ops) :
    let s := (runM (step true d) s0 ops).2
    let l := (runS VecSpec.step [] ops).2
    ∀ j : Int, (l.length : Int) ≤ j → j < s.values.len → s.values.get j = d := by
  intro s l
  have hinv : Inv true d s l := (runM_refines (fun s a o h g => step_spec s a o h g) ops s0 []
    (inv_new (ref := true) hnew) hb).2
  exact hinv.rest rfl

example : ∃ s : Vec (Option Int), Vec.new 1 none = .ok s ∧
    (runM (step true none) s [.append (some 1), .append (some 2), .clear, .append (some 3)]).2.values.toList
      = [some 3, none] := ⟨_, rfl, rfl⟩

end Verif
