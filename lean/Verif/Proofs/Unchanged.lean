import Verif.Java
import Verif.Spec.Unchanged
/-! Methods that leave the object as it was when they throw (`Tidy`), and methods that only read (`Quiet`). -/
namespace Verif
variable {σ α β : Type}

/-- `m` does not change the object. -/
def Quiet (m : JM σ α) : Prop := ∀ s, (m s).state = s

/-- If `m` throws, it has not changed the object. -/
def Tidy (m : JM σ α) : Prop := ∀ s e t, m s = .err e t → t = s

namespace Quiet
theorem tidy {m : JM σ α} (h : Quiet m) : Tidy m := fun s e t he => by
  have := h s; rw [he] at this; exact this
theorem pure (a : α) : Quiet (Pure.pure a : JM σ α) := fun _ => rfl
theorem throw (e : Err) : Quiet (JM.throw e : JM σ α) := fun _ => rfl
theorem get : Quiet (MonadState.get : JM σ σ) := fun _ => rfl
theorem bind {m : JM σ α} {f : α → JM σ β} (h : Quiet m) (hf : ∀ a, Quiet (f a)) : Quiet (m >>= f) := by
  intro s
  have := h s
  rw [JM.bind_apply]
  cases e : m s with
  | ok a t => rw [e] at this; exact (hf a t).trans this
  | err x t => rw [e] at this; exact this
theorem ite {c : Prop} [Decidable c] {m n : JM σ α} (h1 : Quiet m) (h2 : Quiet n) : Quiet (if c then m else n) := by
  split <;> assumption
theorem rd (arr : σ → Arr α) (i : Int) : Quiet (Verif.rd arr i) := by
  intro s; unfold Verif.rd; simp only; split <;> rfl
end Quiet

namespace Tidy
theorem bind {m : JM σ α} {f : α → JM σ β} (h : Quiet m) (hf : ∀ a, Tidy (f a)) : Tidy (m >>= f) := by
  intro s e t he
  have := h s
  rw [JM.bind_apply] at he
  cases e' : m s with
  | ok a u => rw [e'] at he this; rw [hf a u e t he]; exact this
  | err x u => rw [e'] at he this; cases he; exact this
/-- What follows `m` does not throw. -/
theorem seq {m : JM σ α} {f : α → JM σ β} (h : Tidy m) (hf : ∀ a s, ∃ b t, f a s = .ok b t) : Tidy (m >>= f) := by
  intro s e t he
  rw [JM.bind_apply] at he
  cases e' : m s with
  | ok a u =>
    rw [e'] at he
    obtain ⟨b, w, hw⟩ := hf a u
    simp only at he
    rw [hw] at he; cases he
  | err x u => rw [e'] at he; cases he; exact h s _ _ e'
theorem ite {c : Prop} [Decidable c] {m n : JM σ α} (h1 : Tidy m) (h2 : Tidy n) : Tidy (if c then m else n) := by
  split <;> assumption
theorem modify (f : σ → σ) : Tidy (_root_.modify f : JM σ PUnit) := fun s e t h => by simp at h
theorem wr (arr : σ → Arr α) (put : σ → Arr α → σ) (i : Int) (v : α) : Tidy (Verif.wr arr put i v) := by
  intro s e t h
  unfold Verif.wr at h
  simp only at h
  split at h <;> cases h
  rfl
end Tidy

/-- The object after a call that threw, when the method keeps the object. -/
theorem Tidy.state {m : JM σ α} (h : Tidy m) {s : σ} {e : Err} (he : (m s).out = .error e) : (m s).state = s := by
  cases hm : m s with
  | ok a t => rw [hm] at he; cases he
  | err x t => exact h s x t hm

theorem noTrace_of_state {op : Type} {step : op → JM σ β} {s : σ} {o : op} (h : (step o s).state = s) :
    NoTrace step s o := by
  intro os; simp only [runM]; rw [h]

end Verif
