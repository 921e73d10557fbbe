import Verif.Java
/-! Outcomes of a method body: what holds when it returns and what holds when it throws. -/
namespace Verif
variable {σ α β : Type}

/-- From `s`, `m` returns with `Q` or throws with `E`. -/
def Sat (m : JM σ α) (s : σ) (Q : α → σ → Prop) (E : Err → σ → Prop) : Prop :=
  match m s with
  | .ok a s' => Q a s'
  | .err e s' => E e s'

namespace Sat
variable {m : JM σ α} {s : σ} {Q : α → σ → Prop} {E : Err → σ → Prop}

theorem pure {a : α} (h : Q a s) : Sat (Pure.pure a : JM σ α) s Q E := h
theorem throw {e : Err} (h : E e s) : Sat (JM.throw e : JM σ α) s Q E := h
theorem bind {f : α → JM σ β} {R : β → σ → Prop} {E : Err → σ → Prop} {Q : α → σ → Prop}
    (h : Sat m s Q E) (g : ∀ a s', Q a s' → Sat (f a) s' R E) : Sat (m >>= f) s R E := by
  unfold Sat at h ⊢
  rw [JM.bind_apply]
  cases hm : m s with
  | ok a s' => rw [hm] at h; exact g a s' h
  | err e s' => rw [hm] at h; exact h
theorem mono {Q' : α → σ → Prop} {E' : Err → σ → Prop} (h : Sat m s Q E)
    (hq : ∀ a s', Q a s' → Q' a s') (he : ∀ e s', E e s' → E' e s') : Sat m s Q' E' := by
  unfold Sat at h ⊢
  cases hm : m s with
  | ok a s' => rw [hm] at h; exact hq _ _ h
  | err e s' => rw [hm] at h; exact he _ _ h
theorem get (h : Q' s s) : Sat (MonadState.get : JM σ σ) s Q' E := h
theorem rd {arr : σ → Arr α} {i : Int} (hi : 0 ≤ i ∧ i < (arr s).len) (h : Q ((arr s).get i) s) :
    Sat (Verif.rd arr i) s Q E := by unfold Sat; rw [rd_ok arr hi]; exact h
theorem wr {arr : σ → Arr α} {put : σ → Arr α → σ} {i : Int} {v : α} {Q : Unit → σ → Prop}
    (hi : 0 ≤ i ∧ i < (arr s).len) (h : Q () (put s ((arr s).set i v))) :
    Sat (Verif.wr arr put i v) s Q E := by unfold Sat; rw [wr_ok arr put hi]; exact h
theorem of_ok {a : α} {s' : σ} (hm : m s = .ok a s') (h : Q a s') : Sat m s Q E := by
  unfold Sat; rw [hm]; exact h
theorem ok_bind {f : α → JM σ β} {R : β → σ → Prop} {a : α} {s' : σ} (hm : m s = .ok a s')
    (h : Sat (f a) s' R E) : Sat (m >>= f) s R E := bind (of_ok (Q := fun b t => b = a ∧ t = s') hm ⟨rfl, rfl⟩)
      (by rintro _ _ ⟨rfl, rfl⟩; exact h)
end Sat
end Verif
